import Verif.Proofs.Json.Encode
/-!
# Whatever the encoder writes is JSON, and UTF-8
-/
set_option linter.unusedSectionVars false
namespace Musli.Json
open Musli Spec

/-- Elements, all of which satisfy `q`. -/
def AfterAll (q : Bytes → Prop) (first : Bool) (s : Bytes) : Prop :=
  ∃ n, After first (List.replicate n q) s

theorem afterAll_nil {q : Bytes → Prop} (first : Bool) : AfterAll q first [] := ⟨0, after_nilI first⟩

theorem afterAll_cons {q : Bytes → Prop} {first : Bool} {c x r : Bytes}
    (hc : (if first then .ok [] else .ok [0x2C#8] : Enc) = .ok c) (hx : q x)
    (hr : AfterAll q false r) : AfterAll q first (c ++ (x ++ r)) := by
  obtain ⟨n, hr⟩ := hr
  exact ⟨n + 1, after_consI hc hx hr⟩

theorem brackets_isValue {b : Enc} {s : Bytes} (h : brackets b = .ok s)
    (hb : ∀ e, b = .ok e → AfterAll IsValue true e) : IsValue s := by
  obtain ⟨c, y, hc, hy, rfl⟩ := Enc.seq_eq_ok.mp h
  obtain ⟨e, d, he, hd, rfl⟩ := Enc.seq_eq_ok.mp hy
  cases hc; cases hd
  obtain ⟨n, hn⟩ := hb e he
  exact arr_isValue (fun p hp x hx => by rw [List.eq_of_mem_replicate hp] at hx; exact hx) ⟨e, hn, rfl⟩

theorem braces_isValue {b : Enc} {s : Bytes} (h : braces b = .ok s)
    (hb : ∀ e, b = .ok e → AfterAll IsMember true e) : IsValue s := by
  obtain ⟨c, y, hc, hy, rfl⟩ := Enc.seq_eq_ok.mp h
  obtain ⟨e, d, he, hd, rfl⟩ := Enc.seq_eq_ok.mp hy
  cases hc; cases hd
  obtain ⟨n, hn⟩ := hb e he
  exact obj_isValue (fun p hp x hx => by rw [List.eq_of_mem_replicate hp] at hx; exact hx) ⟨e, hn, rfl⟩

theorem sepAll_all {α} {f : α → Enc} {q : Bytes → Prop} :
    ∀ (l : List α), (∀ a ∈ l, ∀ x, f a = .ok x → q x) → ∀ (first : Bool) (s : Bytes),
      sepAll f first l = .ok s → AfterAll q first s
  | [], _, first, s, h => by cases h; exact afterAll_nil first
  | a :: l, hp, first, s, h => by
    obtain ⟨c, y, hc, hy, rfl⟩ := Enc.seq_eq_ok.mp h
    obtain ⟨x, r, hx, hr, rfl⟩ := Enc.seq_eq_ok.mp hy
    exact afterAll_cons hc (hp a (by simp) x hx)
      (sepAll_all l (fun b hb => hp b (by simp [hb])) false r hr)

theorem member_one {a b : Enc} {s : Bytes} (h : (a +> .ok [0x3A#8] +> b) = .ok s)
    (hk : ∀ x, a = .ok x → ∃ cs, StrText cs x) (hv : ∀ x, b = .ok x → IsValue x) :
    AfterAll IsMember true s := by
  have hm : IsMember s := member_enc h hk hv
  have := afterAll_cons (q := IsMember) (first := true) (c := []) (x := s) (r := []) rfl hm (afterAll_nil false)
  simpa using this

section
variable (env : Env)

mutual

theorem encJ_isValue : ∀ (t : Ty) (v : t.Val) (s : Bytes), encJ env t v = .ok s → IsValue s
  | .prim _, v, s, h => by
    simp only [encJ] at h; exact primText_isValue (encPrim_text h)
  | .nonZero _ _, v, s, h => by
    simp only [encJ] at h; exact primText_isValue (encPrim_text h)
  | .unit, v, s, h => by simp only [encJ] at h; cases h; exact Text.null
  | .bytes, v, s, h => by
    simp only [encJ] at h
    refine arr_isValue ?_ (encBytes_arr h)
    intro p hp x hx
    obtain ⟨b, _, rfl⟩ := List.mem_map.1 hp
    exact natText_isValue hx
  | .string, v, s, h => by
    simp only [encJ] at h; cases h
    obtain ⟨cs, _, h⟩ := strText_str v
    exact strText_isValue h
  | .byteArray _, v, s, h => by
    simp only [encJ] at h
    refine arr_isValue ?_ (encBytes_arr h)
    intro p hp x hx
    obtain ⟨b, _, rfl⟩ := List.mem_map.1 hp
    exact natText_isValue hx
  | .option t, none, s, h => by simp only [encJ] at h; cases h; exact Text.null
  | .option t, some x, s, h => by simp only [encJ] at h; exact encJ_isValue t x s h
  | .array _ t, v, s, h => by
    simp only [encJ] at h
    exact brackets_isValue h fun e he => sepAll_all v.1 (fun a _ x hx => encJ_isValue t a x hx) _ _ he
  | .vec t, v, s, h => by
    simp only [encJ] at h
    exact brackets_isValue h fun e he => sepAll_all v (fun a _ x hx => encJ_isValue t a x hx) _ _ he
  | .set t, v, s, h => by
    simp only [encJ] at h
    exact brackets_isValue h fun e he => sepAll_all v (fun a _ x hx => encJ_isValue t a x hx) _ _ he
  | .map k t, v, s, h => by
    simp only [encJ] at h
    refine braces_isValue h fun e he => sepAll_all v (fun a _ x hx => ?_) _ _ he
    exact member_enc hx (fun y hy => keyText_str k (encKey_text k a.1 y hy))
      (fun y hy => encJ_isValue t a.2 y hy)
  | .tuple ts, v, s, h => by
    simp only [encJ] at h
    exact brackets_isValue h fun e he => encTysJ_isValue ts v _ e he
  | .result nt t u, .inl v, s, h => by
    simp only [encJ] at h
    exact braces_isValue h fun e he => member_one he (fun x hx => nameKey_str (encNameK_text hx))
      (fun x hx => encJ_isValue t v x hx)
  | .result nt t u, .inr v, s, h => by
    simp only [encJ] at h
    exact braces_isValue h fun e he => member_one he (fun x hx => nameKey_str (encNameK_text hx))
      (fun x hx => encJ_isValue u v x hx)
  | .boxed t, v, s, h => by simp only [encJ] at h; exact encJ_isValue t v s h
  | .wrapping t, v, s, h => by simp only [encJ] at h; exact encJ_isValue t v s h
  | .transparent t, v, s, h => by simp only [encJ] at h; exact encJ_isValue t v s h
  | .unitStruct, v, s, h => by
    simp only [encJ] at h
    exact braces_isValue h fun e he => by cases he; exact afterAll_nil true
  | .strct _ fs, v, s, h => by
    simp only [encJ] at h
    exact braces_isValue h fun e he => encFieldsJ_isValue fs v _ e he
  | .packed _ fs, v, s, h => by
    simp only [encJ] at h
    exact brackets_isValue h fun e he => encPackJ_isValue fs v _ e he
  | .unitEnum _ names, v, s, h => by
    simp only [encJ] at h; exact nameText_isValue (encNameV_text h)
  | .enm _ vs, v, s, h => by
    simp only [encJ] at h
    exact braces_isValue h fun e he => encVariantsJ_isValue vs v e he

theorem encTysJ_isValue : ∀ (ts : Tys) (v : ts.Val) (first : Bool) (s : Bytes),
    encTysJ env ts first v = .ok s → AfterAll IsValue first s
  | .nil, v, first, s, h => by simp only [encTysJ] at h; cases h; exact afterAll_nil first
  | .cons t ts, v, first, s, h => by
    simp only [encTysJ] at h
    obtain ⟨c, y, hc, hy, rfl⟩ := Enc.seq_eq_ok.mp h
    obtain ⟨x, r, hx, hr, rfl⟩ := Enc.seq_eq_ok.mp hy
    exact afterAll_cons hc (encJ_isValue t v.1 x hx) (encTysJ_isValue ts v.2 false r hr)

theorem encFieldsJ_isValue : ∀ (fs : Fields) (v : fs.Val) (first : Bool) (s : Bytes),
    encFieldsJ env fs first v = .ok s → AfterAll IsMember first s
  | .nil, v, first, s, h => by simp only [encFieldsJ] at h; cases h; exact afterAll_nil first
  | .cons n d sk t fs, v, first, s, h => by
    simp only [encFieldsJ] at h
    cases hp : fieldPresent env sk t v.1 with
    | false =>
      rw [hp] at h
      exact encFieldsJ_isValue fs v.2 first s h
    | true =>
      rw [hp] at h
      simp only [if_true] at h
      obtain ⟨c, y, hc, hy, rfl⟩ := Enc.seq_eq_ok.mp h
      obtain ⟨kx, z, hk, hz, rfl⟩ := Enc.seq_eq_ok.mp hy
      obtain ⟨co, z', hco, hz', rfl⟩ := Enc.seq_eq_ok.mp hz
      obtain ⟨x, r, hx, hr, rfl⟩ := Enc.seq_eq_ok.mp hz'
      cases hco
      have hmem : IsMember (kx ++ (0x3A#8 :: x)) :=
        ⟨kx, [], [], x, nameKey_str (encNameK_text hk), ws_nil, ws_nil, encJ_isValue t v.1 x hx, rfl⟩
      have := afterAll_cons hc hmem (encFieldsJ_isValue fs v.2 false r hr)
      simpa using this

theorem encPackJ_isValue : ∀ (fs : Fields) (v : fs.Val) (first : Bool) (s : Bytes),
    encPackJ env fs first v = .ok s → AfterAll IsValue first s
  | .nil, v, first, s, h => by simp only [encPackJ] at h; cases h; exact afterAll_nil first
  | .cons n d sk t ts, v, first, s, h => by
    simp only [encPackJ] at h
    cases hp : fieldPresent env sk t v.1 with
    | false =>
      rw [hp] at h
      exact encPackJ_isValue ts v.2 first s h
    | true =>
      rw [hp] at h
      simp only [if_true] at h
      obtain ⟨c, y, hc, hy, rfl⟩ := Enc.seq_eq_ok.mp h
      obtain ⟨x, r, hx, hr, rfl⟩ := Enc.seq_eq_ok.mp hy
      exact afterAll_cons hc (encJ_isValue t v.1 x hx) (encPackJ_isValue ts v.2 false r hr)

theorem encVariantsJ_isValue : ∀ (vs : Variants) (v : vs.Val) (s : Bytes),
    encVariantsJ env vs v = .ok s → AfterAll IsMember true s
  | .nil, v, _, _ => nomatch v
  | .cons n t vs, .inl x, s, h => by
    simp only [encVariantsJ] at h
    exact member_one h (fun x hx => nameKey_str (encNameK_text hx)) (fun y hy => encJ_isValue t x y hy)
  | .cons n t vs, .inr x, s, h => by
    simp only [encVariantsJ] at h; exact encVariantsJ_isValue vs x s h

end
end

/-! ## UTF-8 -/

theorem valid_ascii : ∀ (l : Bytes), (∀ b ∈ l, b.toNat < 128) → Utf8.valid l = true
  | [], _ => rfl
  | b :: l, h => by
    rw [Utf8.valid_cons1 l (h b (by simp))]
    exact valid_ascii l fun x hx => h x (by simp [hx])

theorem valid_app {a b : Bytes} (ha : Utf8.valid a = true) (hb : Utf8.valid b = true) :
    Utf8.valid (a ++ b) = true := by rw [Utf8.valid_append ha]; exact hb

theorem valid_byte {b : Byte} (hb : b.toNat < 128) {l : Bytes} (h : Utf8.valid l = true) :
    Utf8.valid (b :: l) = true := by rw [Utf8.valid_cons1 l hb]; exact h

theorem valid_ws {l : Bytes} (h : Ws l) : Utf8.valid l = true := valid_ascii l fun b hb => by
  rcases h b hb with h | h | h | h <;> subst h <;> decide

theorem valid_digits {l : Bytes} (h : Digits l) : Utf8.valid l = true := valid_ascii l fun b hb => by
  have := h b hb; unfold Digit at this; omega

theorem valid_numeral {l : Bytes} (h : Numeral l) : Utf8.valid l = true := by
  rcases h with rfl | ⟨b, r, rfl, h1, h2, h3⟩
  · rfl
  · exact valid_byte (by omega) (valid_digits h3)

theorem valid_number {l : Bytes} (h : Number l) : Utf8.valid l = true := by
  cases h with
  | @mk neg int frac exp hi hf he =>
    refine valid_app (by cases neg <;> rfl) (valid_app (valid_numeral hi) (valid_app ?_ ?_))
    · rcases hf with rfl | ⟨ds, h1, _, rfl⟩
      · rfl
      · exact valid_byte (by decide) (valid_digits h1)
    · rcases he with rfl | ⟨e, sg, ds, h1, h2, h3, _, rfl⟩
      · rfl
      · refine valid_byte (by rcases h1 with rfl | rfl <;> decide) (valid_app ?_ (valid_digits h3))
        rcases h2 with rfl | rfl | rfl <;> rfl

theorem valid_hex4 {l : Bytes} {n : Nat} (h : Hex4 l n) : Utf8.valid l = true := by
  obtain ⟨a, b, c, d, i, j, k, m, rfl, ha, hb, hc, hd, _⟩ := h
  unfold HexDigit at ha hb hc hd
  refine valid_ascii _ fun x hx => ?_
  simp only [List.mem_cons, List.not_mem_nil, or_false] at hx
  rcases hx with rfl | rfl | rfl | rfl <;> omega

theorem valid_escape {e : Bytes} {c : Char} (h : Escape e c) : Utf8.valid e = true := by
  cases h with
  | unicode h => exact valid_byte (by decide) (valid_hex4 h)
  | pair h h' =>
    rw [List.cons_append]
    exact valid_byte (by decide) (valid_app (valid_hex4 h)
      (valid_byte (by decide) (valid_byte (by decide) (valid_hex4 h'))))
  | _ => rfl

theorem valid_lit {l : Bytes} {cs : List Char} (h : Lit l cs) : Utf8.valid l = true := by
  induction h with
  | nil => rfl
  | @plain c l cs _ _ _ _ ih => rw [Utf8.valid_encodeChar_append]; exact ih
  | @escape e c l cs he _ ih =>
    rw [List.cons_append]
    exact valid_byte (by decide) (valid_app (valid_escape he) ih)

theorem valid_text {k : Part} {s : Bytes} (h : Text k s) : Utf8.valid s = true := by
  induction h with
  | null => rfl
  | tru => rfl
  | fals => rfl
  | number h => exact valid_number h
  | string h => exact valid_byte (by decide) (valid_app (valid_lit h) rfl)
  | emptyArray h => exact valid_byte (by decide) (valid_app (valid_ws h) rfl)
  | array _ ih => exact valid_byte (by decide) (valid_app ih rfl)
  | emptyObject h => exact valid_byte (by decide) (valid_app (valid_ws h) rfl)
  | object _ ih => exact valid_byte (by decide) (valid_app ih rfl)
  | element ha _ hb ih => exact valid_app (valid_ws ha) (valid_app ih (valid_ws hb))
  | elements ha _ hb _ ih ih' =>
    exact valid_app (valid_ws ha) (valid_app ih (valid_app (valid_ws hb) (valid_byte (by decide) ih')))
  | member ha hl hb hc _ hd ih =>
    exact valid_app (valid_app (valid_ws ha) (valid_byte (by decide) (valid_app (valid_lit hl) rfl)))
      (valid_app (valid_ws hb) (valid_byte (by decide) (valid_app (valid_ws hc)
        (valid_app ih (valid_ws hd)))))
  | members ha hl hb hc _ hd _ ih ih' =>
    exact valid_app (valid_app (valid_ws ha) (valid_byte (by decide) (valid_app (valid_lit hl) rfl)))
      (valid_app (valid_ws hb) (valid_byte (by decide) (valid_app (valid_ws hc)
        (valid_app ih (valid_app (valid_ws hd) (valid_byte (by decide) ih'))))))

end Musli.Json
