import Verif.Proofs.Serde.JsonEncode
import Verif.Proofs.Value.JsonAny
import Verif.Proofs.Serde.Any
/-!
# `deserialize_any` through JSON
-/
set_option linter.unusedSectionVars false
namespace Musli.Serde.Json
open Musli.Json Musli.Json.Spec

mutual

/-- The document as the calls on a visitor. -/
def toSeen : Doc → Seen
  | .null => .unit
  | .bool b => .bool b
  | .num neg n => visitNumber (toNumber neg n)
  | .str s => .str s
  | .arr l => .seq (toSeens l)
  | .obj l => .map (toSeenPairs l)

def toSeens : List Doc → List Seen
  | [] => []
  | d :: l => toSeen d :: toSeens l

def toSeenPairs : List (Str × Doc) → List (Seen × Seen)
  | [] => []
  | p :: l => toSeenPair p :: toSeenPairs l

def toSeenPair : Str × Doc → Seen × Seen
  | (k, d) => (.str k, toSeen d)

end

theorem toSeens_eq : ∀ l : List Doc, toSeens l = l.map toSeen
  | [] => by simp only [toSeens, List.map_nil]
  | d :: l => by simp only [toSeens, List.map_cons, toSeens_eq l]

theorem toSeenPairs_eq : ∀ l : List (Str × Doc), toSeenPairs l = l.map (fun p => (.str p.1, toSeen p.2))
  | [] => by simp only [toSeenPairs, List.map_nil]
  | (k, d) :: l => by simp only [toSeenPairs, toSeenPair, List.map_cons, toSeenPairs_eq l]

theorem anyKeyS_text (v : Str) : Decodes anyKeyS (.str v) (StringText v) := by
  intro x hx ws hw s hs
  obtain ⟨cs, hc⟩ := stringText_str hx
  unfold anyKeyS
  rw [lex_bind, dropWs_isValue hw (strText_isValue hc)]
  obtain ⟨r, hr⟩ := strText_head hc
  have ht : tokenAt (x ++ s) = .string := by rw [hr]; rfl
  rw [ht]
  show (decStr >>= _) _ = _
  have := decStr_text v x hx [] ws_nil s hs
  rw [List.nil_append] at this
  rw [P.bind_ok this]
  rfl

variable (flt : Bool → Parts 128 → BitVec 64)

theorem anyNumberS_text (neg : Bool) (n : Nat) (h : (Doc.num neg n).small) :
    Decodes (anyNumberS flt) (visitNumber (toNumber neg n)) (Doc.text (.num neg n)) := by
  intro x hx ws hw s hs
  simp only [Doc.text] at hx
  obtain ⟨num, hn, hv, rfl⟩ := hx
  simp only [Doc.small] at h
  have hlt : value num < 2 ^ 128 := by
    rw [hv]
    cases neg with
    | true => simp only [if_true] at h; omega
    | false => simpa using h
  unfold anyNumberS
  rw [List.append_assoc, skipWs_bind, dropWs_signed neg hw hn, P.bind_ok (minus_sign_numeral neg hn s),
    P.bind_ok (unsignedFull_ok hn hs hlt)]
  cases neg with
  | false =>
    simp only [Bool.false_eq_true, if_false] at h ⊢
    rw [compute_int]
    rw [hv, ← smallestUnsigned_eq h]
    rfl
  | true =>
    simp only [if_true] at h ⊢
    obtain ⟨v, h1, h2⟩ := computeSigned_ok (w := 128) (by decide) (neg := true) (n := n) (by simpa using h)
    unfold computeParts
    rw [compute_int]
    simp only [hv]
    rw [h1]
    simp only
    rw [smallestSigned_eq v h2]
    rfl

mutual

theorem anyS_text : ∀ (d : Doc), d.small → ∀ fuel, depth d < fuel →
    Decodes (anyS flt fuel) (toSeen d) d.text
  | .null, _, fuel, hf => by
    obtain ⟨f, rfl⟩ : ∃ f, fuel = f + 1 := ⟨fuel - 1, by omega⟩
    intro x hx ws hw s hs
    have hv := doc_isValue _ x hx
    simp only [Doc.text] at hx
    subst hx
    unfold anyS
    rw [lex_bind, dropWs_isValue hw hv]
    exact P.bind_ok (parseExact_ok strNull s)
  | .bool b, _, fuel, hf => by
    obtain ⟨f, rfl⟩ : ∃ f, fuel = f + 1 := ⟨fuel - 1, by omega⟩
    intro x hx ws hw s hs
    have hv := doc_isValue _ x hx
    simp only [Doc.text] at hx
    subst hx
    unfold anyS
    rw [lex_bind, dropWs_isValue hw hv]
    cases b
    · exact P.bind_ok (parseExact_ok strFalse s)
    · exact P.bind_ok (parseExact_ok strTrue s)
  | .num neg n, hsm, fuel, hf => by
    obtain ⟨f, rfl⟩ : ∃ f, fuel = f + 1 := ⟨fuel - 1, by omega⟩
    intro x hx ws hw s hs
    have hv := doc_isValue _ x hx
    have ht : tokenAt (x ++ s) = .number := by
      simp only [Doc.text] at hx
      obtain ⟨num, hn, _, rfl⟩ := hx
      exact number_head' hn
    unfold anyS
    rw [lex_bind, dropWs_isValue hw hv, ht]
    have := anyNumberS_text flt neg n hsm x hx [] ws_nil s hs
    rw [List.nil_append] at this
    simpa only [toSeen] using this
  | .str v, _, fuel, hf => by
    obtain ⟨f, rfl⟩ : ∃ f, fuel = f + 1 := ⟨fuel - 1, by omega⟩
    intro x hx ws hw s hs
    have hv := doc_isValue _ x hx
    simp only [Doc.text] at hx
    obtain ⟨cs, hc⟩ := stringText_str hx
    obtain ⟨r, hr⟩ := strText_head hc
    have ht : tokenAt (x ++ s) = .string := by rw [hr]; rfl
    unfold anyS
    rw [lex_bind, dropWs_isValue hw hv, ht]
    show (decStr >>= _) _ = _
    have := decStr_text v x hx [] ws_nil s hs
    rw [List.nil_append] at this
    rw [P.bind_ok this]
    simp only [toSeen]
    rfl
  | .arr l, hsm, fuel, hf => by
    simp only [depth] at hf
    simp only [Doc.small] at hsm
    obtain ⟨f, rfl⟩ : ∃ f, fuel = f + 1 := ⟨fuel - 1, by omega⟩
    intro x hx ws hw s hs
    have hv := doc_isValue _ x hx
    have hi := texts_isValue l
    simp only [Doc.text] at hx
    have ht : tokenAt (x ++ s) = .openBracket := by obtain ⟨e, _, rfl⟩ := hx; rfl
    unfold anyS
    rw [lex_bind, dropWs_isValue hw hv, ht]
    show (sequence (anyS flt f) >>= _) _ = _
    rw [texts_eq] at hx hi
    have := sequence_map (d := anyS flt f) toSeen (p := Doc.text) (l := l)
      (fun a ha x hx => hi a.text (List.mem_map.2 ⟨a, ha, rfl⟩) x hx)
      (anySs_text l hsm f (by omega)) x hx [] ws_nil s hs
    rw [List.nil_append] at this
    rw [P.bind_ok this]
    simp only [toSeen, toSeens_eq]
    rfl
  | .obj l, hsm, fuel, hf => by
    simp only [depth] at hf
    simp only [Doc.small] at hsm
    obtain ⟨f, rfl⟩ : ∃ f, fuel = f + 1 := ⟨fuel - 1, by omega⟩
    intro x hx ws hw s hs
    have hv := doc_isValue _ x hx
    have hi := anySMs_text l hsm f (by omega)
    simp only [Doc.text] at hx
    have ht : tokenAt (x ++ s) = .openBrace := by obtain ⟨e, _, rfl⟩ := hx; rfl
    unfold anyS
    rw [lex_bind, dropWs_isValue hw hv, ht]
    rw [memberTexts_eq] at hx
    have := object_text (body := fun l => do
        let k ← anyKeyS
        expect .colon
        let v ← anyS flt f
        pure (l ++ [(k, v)])) (fun l (p : Str × Doc) => l ++ [(Seen.str p.1, toSeen p.2)])
      (fun p => Member (StringText p.1) p.2.text) (es := l)
      (fun a _ x hx => member_quote (fun s => stringText_str) hx)
      (fun a ha st x hx s hs => by
        refine member_text (anyKeyS_text a.1) (fun k => do
          let v ← anyS flt f
          pure (st ++ [(k, v)])) (b := st ++ [(Seen.str a.1, toSeen a.2)]) (p := a.2.text)
          ?_ x hx [] ws_nil s hs
        exact Decodes.bind (hi a ha) (fun s => rfl)) [] x hx [] ws_nil s hs
    rw [List.nil_append] at this
    have e : ∀ (l : List (Str × Doc)) (acc : List (Seen × Seen)),
        l.foldl (fun l (p : Str × Doc) => l ++ [(Seen.str p.1, toSeen p.2)]) acc =
          acc ++ l.map (fun p => (Seen.str p.1, toSeen p.2)) := by
      intro l
      induction l with
      | nil => simp
      | cons p l ih => intro acc; simp [ih]
    rw [e, List.nil_append] at this
    show (object _ [] >>= _) _ = _
    rw [P.bind_ok this]
    simp only [toSeen, toSeenPairs_eq]
    rfl

theorem anySs_text : ∀ (l : List Doc), smalls l → ∀ fuel, depths l < fuel → ∀ d ∈ l,
    Decodes (anyS flt fuel) (toSeen d) d.text
  | [], _, _, _ => fun d hd => by cases hd
  | d :: l, hsm, fuel, hf => by
    simp only [smalls] at hsm
    simp only [depths] at hf
    intro c hc
    rcases List.mem_cons.1 hc with h | hc
    · rw [h]; exact anyS_text d hsm.1 fuel (by omega)
    · exact anySs_text l hsm.2 fuel (by omega) c hc

theorem anySMs_text : ∀ (l : List (Str × Doc)), smallMembers l → ∀ fuel, depthsM l < fuel → ∀ m ∈ l,
    Decodes (anyS flt fuel) (toSeen m.2) m.2.text
  | [], _, _, _ => fun d hd => by cases hd
  | m :: l, hsm, fuel, hf => by
    simp only [smallMembers] at hsm
    simp only [depthsM] at hf
    intro c hc
    rcases List.mem_cons.1 hc with h | hc
    · rw [h]; exact anySM_text m hsm.1 fuel (by omega)
    · exact anySMs_text l hsm.2 fuel (by omega) c hc

theorem anySM_text : ∀ (m : Str × Doc), smallMember m → ∀ fuel, depthM m < fuel →
    Decodes (anyS flt fuel) (toSeen m.2) m.2.text
  | (k, d), hsm, fuel, hf => by
    simp only [smallMember] at hsm
    simp only [depthM] at hf
    exact anyS_text d hsm fuel hf

end

/-- Any text of a document is shown as the document. -/
theorem deserializeAnyJ_text (d : Doc) (h : d.small) : Decodes (deserializeAnyJ flt) (toSeen d) d.text := by
  intro x hx ws hw s hs
  have := depth_le d x hx
  exact anyS_text flt d h _ (by simp; omega) x hx ws hw s hs

theorem fits_narrowest {neg : Bool} {n : Nat} (h : Fits neg n .w128) : Fits neg n (narrowest neg n) := by
  unfold narrowest
  split
  · assumption
  · split
    · assumption
    · split
      · assumption
      · split
        · assumption
        · exact h

theorem visitNumber_plain (x : Number) (i : Int) (h : match x with
    | .uint _ v => (v.toNat : Int) = i
    | .sint _ v => v.toInt = i
    | .usize v => (v.toNat : Int) = i
    | .isize v => v.toInt = i
    | .f32 _ => False
    | .f64 _ => False) : (visitNumber x).plain = .int i := by
  cases x with
  | uint w v =>
    cases w with
    | w128 => exact (visitU128_plain v).trans (congrArg _ h)
    | _ => simp only [visitNumber, Seen.plain]; exact congrArg _ h
  | sint w v =>
    cases w with
    | w128 => exact (visitI128_plain v).trans (congrArg _ h)
    | _ => simp only [visitNumber, Seen.plain]; exact congrArg _ h
  | usize v => simp only [visitNumber, Seen.plain]; exact congrArg _ h
  | isize v => simp only [visitNumber, Seen.plain]; exact congrArg _ h
  | f32 v => exact h.elim
  | f64 v => exact h.elim

theorem number_plain (neg : Bool) (n : Nat) (h : (Doc.num neg n).small) :
    (visitNumber (toNumber neg n)).plain = .int (signedValue neg n) := by
  have hf : Fits neg n .w128 := by
    simp only [Doc.small] at h
    unfold Fits
    cases neg with
    | true => exact h
    | false => exact h
  have hf := fits_narrowest hf
  unfold Fits at hf
  unfold toNumber
  cases neg with
  | true =>
    simp only [if_true] at hf ⊢
    apply visitNumber_plain
    show (BitVec.ofInt _ _).toInt = _
    generalize narrowest true n = w at hf
    have hw : 0 < w.bits := by cases w <;> decide
    have hk : ((2 ^ (w.bits - 1) : Nat) : Int) = (2 : Int) ^ (w.bits - 1) := by simp
    rw [BitVec.toInt_ofInt_eq_self hw]
    · simp [signedValue]
    · generalize (2 : Int) ^ (w.bits - 1) = k at hk ⊢
      generalize 2 ^ (w.bits - 1) = k' at hf hk
      omega
    · have : 0 < 2 ^ (w.bits - 1) := Nat.two_pow_pos _
      generalize (2 : Int) ^ (w.bits - 1) = k at hk ⊢
      generalize 2 ^ (w.bits - 1) = k' at hf hk this
      omega
  | false =>
    simp only [Bool.false_eq_true, if_false] at hf ⊢
    apply visitNumber_plain
    show ((BitVec.ofNat _ _).toNat : Int) = _
    rw [BitVec.toNat_ofNat, Nat.mod_eq_of_lt hf]
    simp [signedValue]

mutual

theorem toSeen_plain : ∀ (d : Doc), d.small → (toSeen d).plain = docPlain d
  | .null, _ => by simp only [toSeen, Seen.plain, docPlain]
  | .bool b, _ => by simp only [toSeen, Seen.plain, docPlain]
  | .num neg n, h => by simp only [toSeen, docPlain]; exact number_plain neg n h
  | .str s, _ => by simp only [toSeen, Seen.plain, docPlain]
  | .arr l, h => by
    simp only [Doc.small] at h
    simp only [toSeen, Seen.plain, docPlain, toSeens_plain l h]
  | .obj l, h => by
    simp only [Doc.small] at h
    simp only [toSeen, Seen.plain, docPlain, toSeenPairs_plain l h]

theorem toSeens_plain : ∀ (l : List Doc), smalls l → Seen.plains (toSeens l) = docPlains l
  | [], _ => by simp only [toSeens, Seen.plains, docPlains]
  | d :: l, h => by
    simp only [smalls] at h
    simp only [toSeens, Seen.plains, docPlains, toSeen_plain d h.1, toSeens_plain l h.2]

theorem toSeenPairs_plain : ∀ (l : List (Str × Doc)), smallMembers l →
    Seen.plainPairs (toSeenPairs l) = docPlainMembers l
  | [], _ => by simp only [toSeenPairs, Seen.plainPairs, docPlainMembers]
  | m :: l, h => by
    simp only [smallMembers] at h
    simp only [toSeenPairs, Seen.plainPairs, docPlainMembers, toSeenPair_plain m h.1,
      toSeenPairs_plain l h.2]

theorem toSeenPair_plain : ∀ (m : Str × Doc), smallMember m →
    Seen.plainPair (toSeenPair m) = docPlainMember m
  | (k, d), h => by
    simp only [smallMember] at h
    simp only [toSeenPair, Seen.plainPair, docPlainMember, Seen.plain, toSeen_plain d h]

end

end Musli.Serde.Json
