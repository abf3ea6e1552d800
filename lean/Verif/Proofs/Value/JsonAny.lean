import Verif.Model.Value.Json
import Verif.Spec.Json.Doc
import Verif.Proofs.Json.Decode
/-!
# Reading any JSON text into a `Value`
-/
set_option linter.unusedSectionVars false
namespace Musli.Json
open Musli Spec

/-! ## Numbers -/

theorem toNumber_u {n : Nat} {w : IW} (h : narrowest false n = w) :
    toNumber false n = .uint w (BitVec.ofNat w.bits n) := by
  unfold toNumber; rw [h]; rfl

theorem toNumber_s {n : Nat} {w : IW} (h : narrowest true n = w) :
    toNumber true n = .sint w (BitVec.ofInt w.bits (-(n : Int))) := by
  unfold toNumber; rw [h]; rfl

theorem smallestUnsigned_eq {n : Nat} (h : n < 2 ^ 128) :
    smallestUnsigned (BitVec.ofNat 128 n) = toNumber false n := by
  have e : (BitVec.ofNat 128 n).toNat = n := by
    rw [BitVec.toNat_ofNat, Nat.mod_eq_of_lt h]
  unfold smallestUnsigned
  simp only [e]
  have hf : ∀ w, Fits false n w ↔ n ≤ 2 ^ w.bits - 1 := by
    intro w
    simp only [Fits, Bool.false_eq_true, if_false]
    have := Nat.two_pow_pos w.bits
    omega
  have f8 := hf .w8
  have f16 := hf .w16
  have f32 := hf .w32
  have f64 := hf .w64
  simp only [IW.bits] at f8 f16 f32 f64
  by_cases h8 : n ≤ 2 ^ 8 - 1
  · rw [if_pos h8, toNumber_u (w := .w8)]
    · rfl
    · unfold narrowest; exact if_pos (f8.2 h8)
  · have g8 := mt f8.1 h8
    rw [if_neg h8]
    by_cases h16 : n ≤ 2 ^ 16 - 1
    · rw [if_pos h16, toNumber_u (w := .w16)]
      · rfl
      · unfold narrowest; rw [if_neg g8]; exact if_pos (f16.2 h16)
    · have g16 := mt f16.1 h16
      rw [if_neg h16]
      by_cases h32 : n ≤ 2 ^ 32 - 1
      · rw [if_pos h32, toNumber_u (w := .w32)]
        · rfl
        · unfold narrowest; rw [if_neg g8, if_neg g16]; exact if_pos (f32.2 h32)
      · have g32 := mt f32.1 h32
        rw [if_neg h32]
        by_cases h64 : n ≤ 2 ^ 64 - 1
        · rw [if_pos h64, toNumber_u (w := .w64)]
          · rfl
          · unfold narrowest; rw [if_neg g8, if_neg g16, if_neg g32]; exact if_pos (f64.2 h64)
        · have g64 := mt f64.1 h64
          rw [if_neg h64, toNumber_u (w := .w128)]
          · rfl
          · unfold narrowest; rw [if_neg g8, if_neg g16, if_neg g32]; exact if_neg g64

theorem smallestSigned_eq {n : Nat} (v : BitVec 128) (h : v.toInt = -(n : Int)) :
    smallestSigned v = toNumber true n := by
  unfold smallestSigned
  simp only [h]
  have hf : ∀ (w : IW) (k : Nat), w.bits - 1 = k → (Fits true n w ↔
      ((-2 ^ k : Int) ≤ -(n : Int) ∧ -(n : Int) ≤ 2 ^ k - 1)) := by
    rintro w k rfl
    simp only [Fits, if_true]
    have := Nat.two_pow_pos (w.bits - 1)
    have e : ((2 ^ (w.bits - 1) : Nat) : Int) = 2 ^ (w.bits - 1) := by simp
    omega
  have f8 := hf .w8 7 rfl
  have f16 := hf .w16 15 rfl
  have f32 := hf .w32 31 rfl
  have f64 := hf .w64 63 rfl
  have e : v = BitVec.ofInt 128 (-(n : Int)) := by rw [← h, BitVec.ofInt_toInt]
  by_cases h8 : (-2 ^ 7 : Int) ≤ -(n : Int) ∧ -(n : Int) ≤ 2 ^ 7 - 1
  · rw [if_pos h8, toNumber_s (w := .w8)]
    · rfl
    · unfold narrowest; exact if_pos (f8.2 h8)
  · have g8 := mt f8.1 h8
    rw [if_neg h8]
    by_cases h16 : (-2 ^ 15 : Int) ≤ -(n : Int) ∧ -(n : Int) ≤ 2 ^ 15 - 1
    · rw [if_pos h16, toNumber_s (w := .w16)]
      · rfl
      · unfold narrowest; rw [if_neg g8]; exact if_pos (f16.2 h16)
    · have g16 := mt f16.1 h16
      rw [if_neg h16]
      by_cases h32 : (-2 ^ 31 : Int) ≤ -(n : Int) ∧ -(n : Int) ≤ 2 ^ 31 - 1
      · rw [if_pos h32, toNumber_s (w := .w32)]
        · rfl
        · unfold narrowest; rw [if_neg g8, if_neg g16]; exact if_pos (f32.2 h32)
      · have g32 := mt f32.1 h32
        rw [if_neg h32]
        by_cases h64 : (-2 ^ 63 : Int) ≤ -(n : Int) ∧ -(n : Int) ≤ 2 ^ 63 - 1
        · rw [if_pos h64, toNumber_s (w := .w64)]
          · rfl
          · unfold narrowest; rw [if_neg g8, if_neg g16, if_neg g32]; exact if_pos (f64.2 h64)
        · have g64 := mt f64.1 h64
          rw [if_neg h64, toNumber_s (w := .w128), e]
          · rfl
          · unfold narrowest; rw [if_neg g8, if_neg g16, if_neg g32]; exact if_neg g64

variable (flt : Bool → Parts 128 → BitVec 64)

theorem anyNumberJ_text (neg : Bool) (n : Nat) (h : (Doc.num neg n).small) :
    Decodes (anyNumberJ flt) (.number (toNumber neg n)) (Doc.text (.num neg n)) := by
  intro x hx ws hw s hs
  simp only [Doc.text] at hx
  obtain ⟨num, hn, hv, rfl⟩ := hx
  simp only [Doc.small] at h
  have hlt : value num < 2 ^ 128 := by
    rw [hv]
    cases neg with
    | true => simp only [if_true] at h; omega
    | false => simpa using h
  unfold anyNumberJ
  rw [List.append_assoc, skipWs_bind, dropWs_signed neg hw hn, P.bind_ok (minus_sign_numeral neg hn s),
    P.bind_ok (unsignedFull_ok hn hs hlt)]
  cases neg with
  | false =>
    simp only [Bool.false_eq_true, if_false] at h ⊢
    rw [compute_int]
    rw [hv, ← smallestUnsigned_eq h]
    rfl
  | true =>
    simp only [if_true] at h ⊢
    obtain ⟨v, h1, h2⟩ := computeSigned_ok (w := 128) (by decide) (neg := true) (n := n) (by simpa using h)
    unfold computeParts
    rw [compute_int]
    simp only [hv]
    rw [h1]
    simp only
    rw [smallestSigned_eq v h2]
    rfl

/-! ## Sequences -/

theorem elems_map {α ε} {d : P α} (f : ε → α) (p : ε → Bytes → Prop) (s : Bytes) :
    ∀ (l : List ε), (∀ a ∈ l, ∀ x, p a x → IsValue x) → (∀ a ∈ l, Decodes d (f a) (p a)) →
    ∀ (first : Bool) (e : Bytes), After first (l.map p) e → ∀ fuel, l.length < fuel →
      elems d fuel first (e ++ 0x5D#8 :: s) = .ok (l.map f, 0x5D#8 :: s) := by
  intro l
  induction l with
  | nil =>
    intro _ _ first e he fuel hf
    obtain ⟨f, rfl⟩ : ∃ f, fuel = f + 1 := ⟨fuel - 1, by simp at hf; omega⟩
    unfold elems
    rw [P.bind_apply, nextValue_ws (after_nil he), nextValue_close]
    rfl
  | cons a l ih =>
    intro hv hd first e he fuel hf
    obtain ⟨f, rfl⟩ : ∃ f, fuel = f + 1 := ⟨fuel - 1, by simp at hf; omega⟩
    obtain ⟨x, r, hx, hr, h1, _⟩ := after_cons he
    unfold elems
    rw [P.bind_ok (h1 (hv a (by simp) x hx) _)]
    have h2 := hd a (by simp) x hx [] ws_nil _ (more_noNumber hr noNumber_bracket s)
    rw [List.nil_append] at h2
    show (d >>= _) _ = _
    rw [P.bind_ok h2]
    rw [P.bind_ok (ih (fun b hb => hv b (by simp [hb])) (fun b hb => hd b (by simp [hb])) false r hr f
      (by simp at hf; omega))]
    rfl

theorem sequence_map {α ε} {d : P α} (f : ε → α) {p : ε → Bytes → Prop} {l : List ε}
    (hv : ∀ a ∈ l, ∀ x, p a x → IsValue x) (hd : ∀ a ∈ l, Decodes d (f a) (p a)) :
    Decodes (sequence d) (l.map f) (Arr (l.map p)) := by
  intro x hx ws hw s hs
  obtain ⟨e, he, h1⟩ := arr_ws hx hw (s := s)
  have hl := separated_length he (by
    intro q hq x hx
    obtain ⟨a, ha, rfl⟩ := List.mem_map.1 hq
    exact isValue_ne_nil (hv a ha x hx))
  have h2 : allElems d (e ++ 0x5D#8 :: s) = .ok (l.map f, 0x5D#8 :: s) :=
    elems_map f p s l hv hd true e he _ (by simp at hl ⊢; omega)
  unfold sequence
  rw [P.bind_ok h1, P.bind_ok h2, P.bind_ok (endSeq_close false s)]
  rfl

/-! ## Documents -/

theorem texts_eq : ∀ l : List Doc, texts l = l.map Doc.text
  | [] => by simp only [texts, List.map_nil]
  | d :: l => by simp only [texts, List.map_cons, texts_eq l]

theorem memberTexts_eq : ∀ l : List (Str × Doc),
    memberTexts l = l.map (fun p => Member (StringText p.1) p.2.text)
  | [] => by simp only [memberTexts, List.map_nil]
  | (k, d) :: l => by
    simp only [memberTexts, List.map_cons, memberTexts_eq l]
    rfl

theorem toValues_eq : ∀ l : List Doc, toValues l = l.map Doc.toValue
  | [] => by simp only [toValues, List.map_nil]
  | d :: l => by simp only [toValues, List.map_cons, toValues_eq l]

theorem toPairs_eq : ∀ l : List (Str × Doc), toPairs l = l.map (fun p => (.string p.1, p.2.toValue))
  | [] => by simp only [toPairs, List.map_nil]
  | (k, d) :: l => by simp only [toPairs, toPair, List.map_cons, toPairs_eq l]

theorem stringText_str {v : Str} {s : Bytes} (h : StringText v s) : ∃ cs, StrText cs s := by
  obtain ⟨cs, _, h⟩ := h; exact ⟨cs, h⟩

mutual

theorem doc_isValue : ∀ (d : Doc) (s : Bytes), d.text s → IsValue s
  | .null, s, h => by simp only [Doc.text] at h; subst h; exact Text.null
  | .bool b, s, h => by
    simp only [Doc.text] at h
    subst h
    cases b
    · exact Text.fals
    · exact Text.tru
  | .num neg n, s, h => by
    simp only [Doc.text] at h
    obtain ⟨num, hn, hv, rfl⟩ := h
    exact intText_isValue ⟨neg, num, hn, rfl, rfl⟩
  | .str v, s, h => by
    simp only [Doc.text] at h
    obtain ⟨cs, h⟩ := stringText_str h
    exact strText_isValue h
  | .arr l, s, h => by
    simp only [Doc.text] at h
    exact arr_isValue (texts_isValue l) h
  | .obj l, s, h => by
    simp only [Doc.text] at h
    exact obj_isValue (memberTexts_isMember l) h

theorem texts_isValue : ∀ (l : List Doc), ∀ p ∈ texts l, ∀ x, p x → IsValue x
  | [], p, hp => by simp only [texts] at hp; cases hp
  | d :: l, p, hp => by
    simp only [texts, List.mem_cons] at hp
    rcases hp with rfl | hp
    · exact doc_isValue d
    · exact texts_isValue l p hp

theorem memberTexts_isMember : ∀ (l : List (Str × Doc)), ∀ p ∈ memberTexts l, ∀ x, p x → IsMember x
  | [], p, hp => by simp only [memberTexts] at hp; cases hp
  | m :: l, p, hp => by
    simp only [memberTexts, List.mem_cons] at hp
    rcases hp with rfl | hp
    · exact memberText_isMember m
    · exact memberTexts_isMember l p hp

theorem memberText_isMember : ∀ (m : Str × Doc) (x : Bytes), memberText m x → IsMember x
  | (k, d), x, h => by
    simp only [memberText] at h
    exact member_isMember (fun s => stringText_str) (doc_isValue d) h

end

mutual

/-- The nesting of a document. -/
def depth : Doc → Nat
  | .arr l => depths l + 1
  | .obj l => depthsM l + 1
  | _ => 0

def depths : List Doc → Nat
  | [] => 0
  | d :: l => max (depth d) (depths l)

def depthsM : List (Str × Doc) → Nat
  | [] => 0
  | p :: l => max (depthM p) (depthsM l)

def depthM : Str × Doc → Nat
  | (_, d) => depth d

end

theorem more_part {ps : List (Bytes → Prop)} : ∀ {s : Bytes}, More ps s → ∀ p ∈ ps,
    ∃ x, p x ∧ x.length ≤ s.length := by
  induction ps with
  | nil => intro s _ p hp; cases hp
  | cons q ps ih =>
    rintro s ⟨a, b, x, r, _, _, hx, hr, rfl⟩ p hp
    rcases List.mem_cons.1 hp with rfl | hp
    · exact ⟨x, hx, by simp; omega⟩
    · obtain ⟨y, hy, hl⟩ := ih hr p hp
      exact ⟨y, hy, by simp; omega⟩

theorem separated_part {ps : List (Bytes → Prop)} {s : Bytes} (h : Separated ps s) : ∀ p ∈ ps,
    ∃ x, p x ∧ x.length ≤ s.length := by
  cases ps with
  | nil => intro p hp; cases hp
  | cons q ps =>
    obtain ⟨b, x, r, _, hx, hr, rfl⟩ := h
    intro p hp
    rcases List.mem_cons.1 hp with rfl | hp
    · exact ⟨x, hx, by simp; omega⟩
    · obtain ⟨y, hy, hl⟩ := more_part hr p hp
      exact ⟨y, hy, by simp; omega⟩

mutual

theorem depth_le : ∀ (d : Doc) (s : Bytes), d.text s → depth d ≤ s.length
  | .null, s, h => by simp [depth]
  | .bool b, s, h => by simp [depth]
  | .num neg n, s, h => by simp [depth]
  | .str v, s, h => by simp [depth]
  | .arr l, s, h => by
    simp only [Doc.text] at h
    obtain ⟨e, he, rfl⟩ := h
    have := depths_le l e.length (separated_part he)
    simp only [depth]
    simp; omega
  | .obj l, s, h => by
    simp only [Doc.text] at h
    obtain ⟨e, he, rfl⟩ := h
    have := depthsM_le l e.length (separated_part he)
    simp only [depth]
    simp; omega

theorem depths_le : ∀ (l : List Doc) (n : Nat), (∀ p ∈ texts l, ∃ x, p x ∧ x.length ≤ n) → depths l ≤ n
  | [], n, _ => by simp [depths]
  | d :: l, n, h => by
    simp only [texts] at h
    obtain ⟨x, hx, hl⟩ := h d.text (by simp)
    have h1 := depth_le d x hx
    have h2 := depths_le l n (fun p hp => h p (by simp [hp]))
    simp only [depths]
    omega

theorem depthsM_le : ∀ (l : List (Str × Doc)) (n : Nat),
    (∀ p ∈ memberTexts l, ∃ x, p x ∧ x.length ≤ n) → depthsM l ≤ n
  | [], n, _ => by simp [depthsM]
  | m :: l, n, h => by
    simp only [memberTexts] at h
    obtain ⟨x, hx, hl⟩ := h (memberText m) (by simp)
    have h1 := depthM_le m x hx
    have h2 := depthsM_le l n (fun p hp => h p (by simp [hp]))
    simp only [depthsM]
    omega

theorem depthM_le : ∀ (m : Str × Doc) (x : Bytes), memberText m x → depthM m ≤ x.length
  | (k, d), x, h => by
    simp only [memberText] at h
    obtain ⟨kx, a, b, v, hk, _, _, hv, rfl⟩ := h
    have := depth_le d v hv
    simp only [depthM]
    simp; omega

end

theorem strText_head {cs : List Char} {s : Bytes} (h : StrText cs s) : ∃ r, s = 0x22#8 :: r := by
  obtain ⟨l, _, rfl⟩ := h; exact ⟨_, rfl⟩

theorem anyKeyJ_text (v : Str) : Decodes anyKeyJ (.string v) (StringText v) := by
  intro x hx ws hw s hs
  obtain ⟨cs, hc⟩ := stringText_str hx
  unfold anyKeyJ
  rw [lex_bind, dropWs_isValue hw (strText_isValue hc)]
  obtain ⟨r, hr⟩ := strText_head hc
  have ht : tokenAt (x ++ s) = .string := by rw [hr]; rfl
  rw [ht]
  show (decStr >>= _) _ = _
  have := decStr_text v x hx [] ws_nil s hs
  rw [List.nil_append] at this
  rw [P.bind_ok this]
  rfl

theorem number_head' {neg : Bool} {num s : Bytes} (h : Numeral num) :
    tokenAt (sign neg ++ num ++ s) = .number := by
  cases neg with
  | true => rfl
  | false =>
    obtain ⟨b, r, rfl, hb⟩ := numeral_cons h
    show Token.ofByte b = .number
    clear h
    unfold Digit at hb
    revert hb; revert b; decide

mutual

theorem anyJ_text : ∀ (d : Doc), d.small → ∀ fuel, depth d < fuel →
    Decodes (anyJ flt fuel) d.toValue d.text
  | .null, _, fuel, hf => by
    obtain ⟨f, rfl⟩ : ∃ f, fuel = f + 1 := ⟨fuel - 1, by omega⟩
    intro x hx ws hw s hs
    have hv := doc_isValue _ x hx
    simp only [Doc.text] at hx
    subst hx
    unfold anyJ
    rw [lex_bind, dropWs_isValue hw hv]
    exact P.bind_ok (parseExact_ok strNull s)
  | .bool b, _, fuel, hf => by
    obtain ⟨f, rfl⟩ : ∃ f, fuel = f + 1 := ⟨fuel - 1, by omega⟩
    intro x hx ws hw s hs
    have hv := doc_isValue _ x hx
    simp only [Doc.text] at hx
    subst hx
    unfold anyJ
    rw [lex_bind, dropWs_isValue hw hv]
    cases b
    · exact P.bind_ok (parseExact_ok strFalse s)
    · exact P.bind_ok (parseExact_ok strTrue s)
  | .num neg n, hsm, fuel, hf => by
    obtain ⟨f, rfl⟩ : ∃ f, fuel = f + 1 := ⟨fuel - 1, by omega⟩
    intro x hx ws hw s hs
    have hv := doc_isValue _ x hx
    have ht : tokenAt (x ++ s) = .number := by
      simp only [Doc.text] at hx
      obtain ⟨num, hn, _, rfl⟩ := hx
      exact number_head' hn
    unfold anyJ
    rw [lex_bind, dropWs_isValue hw hv, ht]
    have := anyNumberJ_text flt neg n hsm x hx [] ws_nil s hs
    rw [List.nil_append] at this
    simpa only [Doc.toValue] using this
  | .str v, _, fuel, hf => by
    obtain ⟨f, rfl⟩ : ∃ f, fuel = f + 1 := ⟨fuel - 1, by omega⟩
    intro x hx ws hw s hs
    have hv := doc_isValue _ x hx
    simp only [Doc.text] at hx
    obtain ⟨cs, hc⟩ := stringText_str hx
    obtain ⟨r, hr⟩ := strText_head hc
    have ht : tokenAt (x ++ s) = .string := by rw [hr]; rfl
    unfold anyJ
    rw [lex_bind, dropWs_isValue hw hv, ht]
    show (decStr >>= _) _ = _
    have := decStr_text v x hx [] ws_nil s hs
    rw [List.nil_append] at this
    rw [P.bind_ok this]
    simp only [Doc.toValue]
    rfl
  | .arr l, hsm, fuel, hf => by
    simp only [depth] at hf
    simp only [Doc.small] at hsm
    obtain ⟨f, rfl⟩ : ∃ f, fuel = f + 1 := ⟨fuel - 1, by omega⟩
    intro x hx ws hw s hs
    have hv := doc_isValue _ x hx
    have hi := texts_isValue l
    simp only [Doc.text] at hx
    have ht : tokenAt (x ++ s) = .openBracket := by obtain ⟨e, _, rfl⟩ := hx; rfl
    unfold anyJ
    rw [lex_bind, dropWs_isValue hw hv, ht]
    show (sequence (anyJ flt f) >>= _) _ = _
    rw [texts_eq] at hx hi
    have := sequence_map (d := anyJ flt f) Doc.toValue (p := Doc.text) (l := l)
      (fun a ha x hx => hi a.text (List.mem_map.2 ⟨a, ha, rfl⟩) x hx)
      (anyJs_text l hsm f (by omega)) x hx [] ws_nil s hs
    rw [List.nil_append] at this
    rw [P.bind_ok this]
    simp only [Doc.toValue, toValues_eq]
    rfl
  | .obj l, hsm, fuel, hf => by
    simp only [depth] at hf
    simp only [Doc.small] at hsm
    obtain ⟨f, rfl⟩ : ∃ f, fuel = f + 1 := ⟨fuel - 1, by omega⟩
    intro x hx ws hw s hs
    have hv := doc_isValue _ x hx
    have hi := anyMs_text l hsm f (by omega)
    simp only [Doc.text] at hx
    have ht : tokenAt (x ++ s) = .openBrace := by obtain ⟨e, _, rfl⟩ := hx; rfl
    unfold anyJ
    rw [lex_bind, dropWs_isValue hw hv, ht]
    rw [memberTexts_eq] at hx
    have := object_text (body := fun l => do
        let k ← anyKeyJ
        expect .colon
        let v ← anyJ flt f
        pure (l ++ [(k, v)])) (fun l (p : Str × Doc) => l ++ [(Value.string p.1, p.2.toValue)])
      (fun p => Member (StringText p.1) p.2.text) (es := l)
      (fun a _ x hx => member_quote (fun s => stringText_str) hx)
      (fun a ha st x hx s hs => by
        refine member_text (anyKeyJ_text a.1) (fun k => do
          let v ← anyJ flt f
          pure (st ++ [(k, v)])) (b := st ++ [(Value.string a.1, a.2.toValue)]) (p := a.2.text)
          ?_ x hx [] ws_nil s hs
        exact Decodes.bind (hi a ha) (fun s => rfl)) [] x hx [] ws_nil s hs
    rw [List.nil_append] at this
    have e : ∀ (l : List (Str × Doc)) (acc : List (Value × Value)),
        l.foldl (fun l (p : Str × Doc) => l ++ [(Value.string p.1, p.2.toValue)]) acc =
          acc ++ l.map (fun p => (Value.string p.1, p.2.toValue)) := by
      intro l
      induction l with
      | nil => simp
      | cons p l ih => intro acc; simp [ih]
    rw [e, List.nil_append] at this
    show (object _ [] >>= _) _ = _
    rw [P.bind_ok this]
    simp only [Doc.toValue, toPairs_eq]
    rfl

theorem anyJs_text : ∀ (l : List Doc), smalls l → ∀ fuel, depths l < fuel → ∀ d ∈ l,
    Decodes (anyJ flt fuel) d.toValue d.text
  | [], _, _, _ => fun d hd => by cases hd
  | d :: l, hsm, fuel, hf => by
    simp only [smalls] at hsm
    simp only [depths] at hf
    intro c hc
    rcases List.mem_cons.1 hc with h | hc
    · rw [h]; exact anyJ_text d hsm.1 fuel (by omega)
    · exact anyJs_text l hsm.2 fuel (by omega) c hc

theorem anyMs_text : ∀ (l : List (Str × Doc)), smallMembers l → ∀ fuel, depthsM l < fuel → ∀ m ∈ l,
    Decodes (anyJ flt fuel) m.2.toValue m.2.text
  | [], _, _, _ => fun d hd => by cases hd
  | m :: l, hsm, fuel, hf => by
    simp only [smallMembers] at hsm
    simp only [depthsM] at hf
    intro c hc
    rcases List.mem_cons.1 hc with h | hc
    · rw [h]; exact anyM_text m hsm.1 fuel (by omega)
    · exact anyMs_text l hsm.2 fuel (by omega) c hc

theorem anyM_text : ∀ (m : Str × Doc), smallMember m → ∀ fuel, depthM m < fuel →
    Decodes (anyJ flt fuel) m.2.toValue m.2.text
  | (k, d), hsm, fuel, hf => by
    simp only [smallMember] at hsm
    simp only [depthM] at hf
    exact anyJ_text d hsm fuel hf

end

/-- Any text of a document is read as the document. -/
theorem readValue_text (d : Doc) (h : d.small) : Decodes (readValue flt) d.toValue d.text := by
  intro x hx ws hw s hs
  have := depth_le d x hx
  exact anyJ_text flt d h _ (by simp; omega) x hx ws hw s hs

end Musli.Json
