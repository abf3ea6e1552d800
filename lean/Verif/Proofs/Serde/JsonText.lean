import Verif.Model.Serde.Json
import Verif.Spec.SerdeJson
import Verif.Proofs.SerdeDoc
import Verif.Proofs.Json.DecodeTy
/-!
# The serde bridge reads every JSON text for a value
-/
set_option linter.unusedSectionVars false
namespace Musli.Serde.Json
open Musli.Json Musli.Json.Spec

theorem sKey_str : ∀ (t : Ty) {v : t.Val} {s : Bytes}, SKey t v s → ∃ cs, StrText cs s
  | .prim p, v, s, h => primKey_str h
  | .nonZero _ _, v, s, h => primKey_str h
  | .string, v, s, h => by obtain ⟨cs, _, h⟩ := h; exact ⟨cs, h⟩
  | .boxed t, v, s, h => sKey_str t h
  | .wrapping t, v, s, h => sKey_str t h
  | .transparent t, v, s, h => sKey_str t h
  | .unit, _, _, h => absurd h id
  | .bytes, _, _, h => absurd h id
  | .byteArray _, _, _, h => absurd h id
  | .option _, _, _, h => absurd h id
  | .array _ _, _, _, h => absurd h id
  | .vec _, _, _, h => absurd h id
  | .set _, _, _, h => absurd h id
  | .map _ _, _, _, h => absurd h id
  | .tuple _, _, _, h => absurd h id
  | .result _ _ _, _, _, h => absurd h id
  | .unitStruct, _, _, h => absurd h id
  | .strct _ _, _, _, h => absurd h id
  | .packed _ _, _, _, h => absurd h id
  | .unitEnum _ _, _, _, h => absurd h id
  | .enm _ _, _, _, h => absurd h id

section
variable (env : Env)

mutual

theorem sText_isValue : ∀ (t : Ty) (v : t.Val) (s : Bytes), SText env t v s → IsValue s
  | .prim _, v, s, h => by simp only [SText] at h; exact primText_isValue h
  | .nonZero _ _, v, s, h => by simp only [SText] at h; exact primText_isValue h
  | .unit, v, s, h => by simpa only [SText] using h
  | .unitStruct, v, s, h => by simpa only [SText] using h
  | .bytes, v, s, h => by
    simp only [SText] at h
    refine arr_isValue ?_ h
    intro p hp x hx
    obtain ⟨b, _, rfl⟩ := List.mem_map.1 hp
    exact natText_isValue hx
  | .string, v, s, h => by
    simp only [SText] at h
    obtain ⟨cs, _, h⟩ := h
    exact strText_isValue h
  | .option t, none, s, h => by simp only [SText] at h; subst h; exact Text.null
  | .option t, some x, s, h => by
    simp only [SText] at h
    exact sText_isValue t x s h.1
  | .array _ t, v, s, h => by
    simp only [SText] at h
    obtain ⟨n, h⟩ := h
    refine arr_isValue ?_ h
    intro p hp x hx
    rcases List.mem_append.1 hp with hp | hp
    · obtain ⟨b, _, rfl⟩ := List.mem_map.1 hp
      exact sText_isValue t b x hx
    · rw [(List.mem_replicate.1 hp).2] at hx; exact hx
  | .vec t, v, s, h => by
    simp only [SText] at h
    refine arr_isValue ?_ h
    intro p hp x hx
    obtain ⟨b, _, rfl⟩ := List.mem_map.1 hp
    exact sText_isValue t b x hx
  | .set t, v, s, h => by
    simp only [SText] at h
    refine arr_isValue ?_ h
    intro p hp x hx
    obtain ⟨b, _, rfl⟩ := List.mem_map.1 hp
    exact sText_isValue t b x hx
  | .map k t, v, s, h => by
    simp only [SText] at h
    refine obj_isValue ?_ h
    intro p hp x hx
    obtain ⟨b, _, rfl⟩ := List.mem_map.1 hp
    exact memberL_isMember (fun s => sKey_str k) (fun _ => lead_ws) (fun s => sText_isValue t b.2 s) hx
  | .tuple ts, v, s, h => by
    simp only [SText] at h
    obtain ⟨n, h⟩ := h
    refine arr_isValue ?_ h
    intro p hp x hx
    rcases List.mem_append.1 hp with hp | hp
    · exact sTys_isValue ts v p hp x hx
    · rw [(List.mem_replicate.1 hp).2] at hx; exact hx
  | .result _ t u, .inl v, s, h => by
    simp only [SText] at h
    refine obj_isValue ?_ h
    intro p hp x hx
    rw [List.mem_singleton.1 hp] at hx
    exact memberL_isMember (fun s => nameKey_str) (fun _ => lead_ws) (fun s => sText_isValue t v s) hx
  | .result _ t u, .inr v, s, h => by
    simp only [SText] at h
    refine obj_isValue ?_ h
    intro p hp x hx
    rw [List.mem_singleton.1 hp] at hx
    exact memberL_isMember (fun s => nameKey_str) (fun _ => lead_ws) (fun s => sText_isValue u v s) hx
  | .boxed t, v, s, h => by simp only [SText] at h; exact sText_isValue t v s h
  | .wrapping t, v, s, h => by simp only [SText] at h; exact sText_isValue t v s h
  | .transparent t, v, s, h => by simp only [SText] at h; exact sText_isValue t v s h
  | .strct nt fs, v, s, h => by
    simp only [SText] at h
    obtain ⟨es, _, _, _, h⟩ := h
    refine obj_isValue ?_ h
    intro p hp x hx
    obtain ⟨e, _, rfl⟩ := List.mem_map.1 hp
    cases e with
    | inl k => exact memberL_isMember (fun s => nameKey_str) (fun _ => leadKnown_ws fs k) (fun s => sKnown_isValue fs k s) hx
    | inr n => exact member_isMember (fun s => nameKey_str) (fun s h => h) hx
  | .unitEnum _ names, v, s, h => by
    simp only [SText] at h
    refine obj_isValue ?_ h
    intro p hp x hx
    rw [List.mem_singleton.1 hp] at hx
    exact member_isMember (fun s => nameKey_str) (fun s h => h) hx
  | .enm _ vs, v, s, h => by
    simp only [SText] at h
    refine obj_isValue ?_ h
    intro p hp x hx
    rw [List.mem_singleton.1 hp] at hx
    exact sVariant_isMember vs v x hx
  | .byteArray _, _, _, h => by simp only [SText] at h
  | .packed _ _, _, _, h => by simp only [SText] at h

theorem sTys_isValue : ∀ (ts : Tys) (v : ts.Val), ∀ p ∈ sTys env ts v, ∀ x, p x → IsValue x
  | .nil, v, p, hp, x, hx => by simp [sTys] at hp
  | .cons t ts, v, p, hp, x, hx => by
    simp only [sTys, List.mem_cons] at hp
    rcases hp with rfl | hp
    · exact sText_isValue t v.1 x hx
    · exact sTys_isValue ts v.2 p hp x hx

theorem sKnown_isValue : ∀ (fs : Fields) (k : fs.Known) (s : Bytes),
    sKnown env fs k s → IsValue s
  | .nil, k, _, _ => nomatch k
  | .cons _ _ _ t fs, .inl v, s, h => by simp only [sKnown] at h; exact sText_isValue t v s h
  | .cons _ _ _ t fs, .inr k, s, h => by simp only [sKnown] at h; exact sKnown_isValue fs k s h

theorem sVariant_isMember : ∀ (vs : Variants) (v : vs.Val) (s : Bytes),
    sVariant env vs v s → IsMember s
  | .nil, v, _, _ => nomatch v
  | .cons n t vs, .inl x, s, h => by
    simp only [sVariant] at h
    exact memberL_isMember (fun s => nameKey_str) (fun _ => lead_ws) (fun s => sText_isValue t x s) h
  | .cons n t vs, .inr x, s, h => by
    simp only [sVariant] at h
    exact sVariant_isMember vs x s h

end
end

/-! ## Pieces -/

theorem primText_wire (p : Prim) (v : p.Val) (s : Bytes) :
    PrimText (wire p) (toWire p v) s = PrimText p v s := by
  cases p <;> rfl

theorem primKey_wire (p : Prim) (v : p.Val) (s : Bytes) :
    PrimKey (wire p) (toWire p v) s = PrimKey p v s := by
  cases p <;> rfl

theorem ofWire_toWire' (p : Prim) (v : p.Val) : ofWire p (toWire p v) = v := by
  cases p <;> rfl

theorem deName_text (n : Name) (h : n.ty = .str) : Decodes deName n (NameKey n) := by
  cases n with
  | idx n => cases h
  | str n => exact Decodes.bind (decStr_text n) (fun s => rfl)

theorem deKey_text (full : Bool) : ∀ (t : Ty) (v : t.Val), Decodes (deKey full t) v (SKey t v)
  | .prim p, v => by
    intro x hx
    have hx : PrimKey p v x := hx
    rw [← primKey_wire] at hx
    refine Decodes.bind (decPrimKey_text full (wire p) (toWire p v)) (fun s => ?_) x hx
    rw [ofWire_toWire']; rfl
  | .nonZero sg w, v => by
    refine Decodes.bind (decPrimKey_text full _ _) ?_
    intro s
    rw [unraw_raw, toNonZero_ok]
    rfl
  | .string, v => decStr_text v
  | .boxed t, v => deKey_text full t v
  | .wrapping t, v => deKey_text full t v
  | .transparent t, v => deKey_text full t v
  | .unit, _ => fun _ h => absurd h id
  | .bytes, _ => fun _ h => absurd h id
  | .byteArray _, _ => fun _ h => absurd h id
  | .option _, _ => fun _ h => absurd h id
  | .array _ _, _ => fun _ h => absurd h id
  | .vec _, _ => fun _ h => absurd h id
  | .set _, _ => fun _ h => absurd h id
  | .map _ _, _ => fun _ h => absurd h id
  | .tuple _, _ => fun _ h => absurd h id
  | .result _ _ _, _ => fun _ h => absurd h id
  | .unitStruct, _ => fun _ h => absurd h id
  | .strct _ _, _ => fun _ h => absurd h id
  | .packed _ _, _ => fun _ h => absurd h id
  | .unitEnum _ _, _ => fun _ h => absurd h id
  | .enm _ _, _ => fun _ h => absurd h id

theorem takeNJ_text {α} {d : P α} {p : α → Bytes → Prop} : ∀ (l : List α),
    (∀ a ∈ l, ∀ x, p a x → IsValue x) →
    (∀ a ∈ l, ∀ x, p a x → ∀ s, NoNumber s → d (x ++ s) = .ok (a, s)) →
    ∀ (first : Bool) (qs : List (Bytes → Prop)) (e s : Bytes), After first (l.map p ++ qs) e →
    ∃ r first', takeNJ d l.length first (e ++ 0x5D#8 :: s) = .ok ((l, first'), r ++ 0x5D#8 :: s) ∧
      After first' qs r
  | [], _, _, first, qs, e, s, h => ⟨e, first, rfl, h⟩
  | a :: l, hv, hd, first, qs, e, s, h => by
    rw [List.map_cons, List.cons_append] at h
    obtain ⟨x, r, hx, hr, h1, _⟩ := after_cons h
    have h2 := hd a (by simp) x hx _ (more_noNumber hr noNumber_bracket s)
    obtain ⟨r', first', h3, h4⟩ := takeNJ_text l (fun b hb => hv b (by simp [hb]))
      (fun b hb => hd b (by simp [hb])) false qs r s hr
    refine ⟨r', first', ?_, h4⟩
    rw [List.length_cons, takeNJ,
      P.bind_ok (needNext_value (h1 (hv a (by simp) x hx) _)), P.bind_ok h2, P.bind_ok h3]
    rfl

/-- As `entries_after`, with an invariant. -/
theorem entries_inv {σ ε} {body : σ → P σ} (step : σ → ε → σ) (p : ε → Bytes → Prop) (s : Bytes)
    (I : List ε → σ → Prop)
    (hb : ∀ a es st, I (a :: es) st → I es (step st a) ∧
      ∀ x, p a x → ∀ s, NoNumber s → body st (x ++ s) = .ok (step st a, s)) :
    ∀ (es : List ε), (∀ a ∈ es, ∀ x, p a x → ∃ y, x = 0x22#8 :: y) →
    ∀ (first : Bool) (st : σ), I es st →
    ∀ (e : Bytes), After first (es.map p) e → ∀ fuel, es.length < fuel →
      entries body fuel first st (e ++ 0x7D#8 :: s) = .ok ((es.foldl step st, false), 0x7D#8 :: s) := by
  intro es
  induction es with
  | nil =>
    intro _ first st _ e he fuel hf
    obtain ⟨f, rfl⟩ : ∃ f, fuel = f + 1 := ⟨fuel - 1, by simp at hf; omega⟩
    unfold entries
    rw [P.bind_apply, nextKey_ws (after_nil he), nextKey_close]
    rfl
  | cons a l ih =>
    intro hv first st hI e he fuel hf
    obtain ⟨f, rfl⟩ : ∃ f, fuel = f + 1 := ⟨fuel - 1, by simp at hf; omega⟩
    obtain ⟨x, r, hx, hr, _, h1⟩ := after_cons he
    obtain ⟨hI', hbody⟩ := hb a l st hI
    unfold entries
    rw [P.bind_ok (h1 (hv a (by simp) x hx) _)]
    show (body st >>= _) _ = _
    rw [P.bind_ok (hbody x hx _ (more_noNumber hr noNumber_brace s))]
    exact ih (fun b hb => hv b (by simp [hb])) false _ hI' r hr f (by simp at hf; omega)

theorem object_inv {σ ε} {body : σ → P σ} (step : σ → ε → σ) (p : ε → Bytes → Prop)
    (I : List ε → σ → Prop)
    (hb : ∀ a es st, I (a :: es) st → I es (step st a) ∧
      ∀ x, p a x → ∀ s, NoNumber s → body st (x ++ s) = .ok (step st a, s)) {es : List ε}
    (hv : ∀ a ∈ es, ∀ x, p a x → ∃ y, x = 0x22#8 :: y)
    (st : σ) (hI : I es st) : Decodes (object body st) (es.foldl step st) (Obj (es.map p)) := by
  intro x hx ws hw s hs
  obtain ⟨e, he, h1⟩ := obj_ws hx hw (s := s)
  have hl := separated_length he (by
    intro q hq x hx
    obtain ⟨a, ha, rfl⟩ := List.mem_map.1 hq
    obtain ⟨y, rfl⟩ := hv a ha x hx
    simp)
  have h2 : allEntries body st (e ++ 0x7D#8 :: s) = _ :=
    entries_inv step p s I hb es hv true st hI e he _ (by simp at hl ⊢; omega)
  unfold object
  rw [P.bind_ok h1, P.bind_ok h2]
  show (endMap false >>= _) _ = _
  rw [P.bind_ok (endMap_close false s)]
  rfl

theorem deEntryJ_unknown (full : Bool) (env : Env) : ∀ (fs : Fields) (n : Name), n ∉ fs.names →
    ∀ p, Decodes (deEntryJ full env fs n p) p IsValue
  | .nil, n, _, p => by
    intro x hx ws hw s hs
    simp only [deEntryJ]
    exact skip_isValue hw hx hs
  | .cons n' d sk t fs, n, h, p => by
    simp only [Fields.names, List.mem_cons, not_or] at h
    simp only [deEntryJ]
    rw [if_neg (fun hc => h.1 hc.symm)]
    exact Decodes.bind (deEntryJ_unknown full env fs n h.2 p.2) (fun s => rfl)

/-! ## Types -/

section
variable (full : Bool) (env : Env)

mutual

theorem deJ_text : ∀ (t : Ty), names t = true → ∀ v : t.Val,
    DecodesL (Lead t) (deJ full env t) v (SText env t v)
  | .prim p, _, v => by
    simp only [deJ]
    intro x hx ws hw s hs
    simp only [SText] at hx
    rw [← primText_wire] at hx
    have hw' : Lead (.prim (wire p)) ws := ⟨hw.1, fun h => hw.2 (by cases p <;> first | exact h | cases h)⟩
    refine (DecodesL.bind (decPrim_text full (wire p) (toWire p v)) (fun s => ?_) : DecodesL _ _ _ _) x hx ws hw' s hs
    rw [ofWire_toWire']; rfl
  | .nonZero sg w, _, v => by
    simp only [deJ]
    intro x hx ws ⟨hw, _⟩ s hs
    simp only [SText] at hx
    refine (DecodesL.bind (decPrim_text full (nonZeroPrim sg w) (nonZeroRaw sg w v.1)) ?_ : DecodesL _ _ _ _) x hx ws (lead_of (by cases sg <;> rfl) hw) s hs
    intro s
    rw [unraw_raw, toNonZero_ok]
    rfl
  | .unit, _, v => by
    simp only [deJ]
    intro x hx ws ⟨hw, _⟩ s hs
    simp only [SText] at hx
    exact skip_isValue hw hx hs
  | .unitStruct, _, v => by
    simp only [deJ]
    intro x hx ws ⟨hw, _⟩ s hs
    simp only [SText] at hx
    exact skip_isValue hw hx hs
  | .bytes, _, v => by
    simp only [deJ]
    intro x hx
    simp only [SText] at hx
    refine (Decodes.lead (sequence_text ?_ ?_) fun _ => lead_ws) x hx
    · intro a _ x hx; exact natText_isValue hx
    · intro a _; exact (parseUnsigned_text full (w := 8) a).tight ws_nil
  | .string, _, v => by
    simp only [deJ]
    intro x hx
    simp only [SText] at hx
    exact (decStr_text v).lead (fun _ => lead_ws) x hx
  | .option t, h, none => by
    simp only [deJ]
    intro x hx ws ⟨hw, _⟩ s hs
    simp only [SText] at hx
    subst hx
    rw [lex_bind, dropWs_isValue hw Text.null]
    exact P.bind_ok (parseExact_ok strNull s)
  | .option t, h, some y => by
    simp only [deJ]
    intro x hx ws ⟨hw, _⟩ s hs
    simp only [SText] at hx
    have hv := sText_isValue env t y x hx.1
    have h1 := deJ_text t (by simpa only [names] using h) y x hx.1 [] lead_nil s hs
    rw [List.nil_append] at h1
    rw [lex_bind, dropWs_isValue hw hv, if_neg (fun hc => hx.2 (isValue_null hv s hc))]
    exact P.bind_ok h1
  | .array n t, h, v => by
    simp only [deJ]
    intro x hx ws ⟨hw, _⟩ s hs
    simp only [SText] at hx
    simp only [names] at h
    obtain ⟨k, hx⟩ := hx
    obtain ⟨e, he, h1⟩ := arr_ws hx hw (s := s)
    obtain ⟨r, first', h2, h3⟩ := takeNJ_text (d := deJ full env t) v.1
      (fun a _ x hx => sText_isValue env t a x hx) (fun a _ => (deJ_text t h a).tight lead_nil) true _ e s he
    rw [v.2] at h2
    have h4 : toArray n v.1 = .ok v := by unfold toArray; rw [dif_pos v.2]
    rw [P.bind_ok h1, P.bind_ok h2]
    show (endSeq first' >>= _) _ = _
    rw [P.bind_ok (endSeq_after h3 s), h4]
    rfl
  | .vec t, h, v => by
    simp only [deJ]
    intro x hx
    simp only [SText] at hx
    simp only [names] at h
    exact (Decodes.lead (sequence_text (fun a _ x hx => sText_isValue env t a x hx)
      (fun a _ => (deJ_text t h a).tight lead_nil)) fun _ => lead_ws) x hx
  | .set t, h, v => by
    simp only [deJ]
    intro x hx
    simp only [SText] at hx
    simp only [names] at h
    exact (Decodes.lead (sequence_text (fun a _ x hx => sText_isValue env t a x hx)
      (fun a _ => (deJ_text t h a).tight lead_nil)) fun _ => lead_ws) x hx
  | .map k t, h, v => by
    simp only [deJ]
    intro x hx ws ⟨hw, _⟩ s hs
    simp only [SText] at hx
    simp only [names, Bool.and_eq_true] at h
    have := object_text (body := fun l => do
        let a ← deKey full k
        expect .colon
        let b ← deJ full env t
        pure (l ++ [(a, b)])) (fun l (x : k.Val × t.Val) => l ++ [x])
      (fun x => MemberL (SKey k x.1) (Lead t) (SText env t x.2)) (es := v)
      (fun a _ x hx => memberL_quote (fun s => sKey_str k) hx)
      (fun a _ st x hx s hs => by
        have := member_textL (deKey_text full k a.1)
          (fun y => do let b ← deJ full env t; pure (st ++ [(y, b)])) (b := st ++ [a])
          (DecodesL.bind (deJ_text t h.2 a.2) (fun s => rfl)) x hx [] ws_nil s hs
        exact this) []
    have hfold : v.foldl (fun l x => l ++ [x]) [] = v := by
      have : ∀ (l acc : List (k.Val × t.Val)), l.foldl (fun l x => l ++ [x]) acc = acc ++ l := by
        intro l
        induction l with
        | nil => simp
        | cons a l ih => intro acc; simp [ih]
      simpa using this v []
    rw [hfold] at this
    exact this x hx ws hw s hs
  | .tuple ts, h, v => by
    simp only [deJ]
    intro x hx ws ⟨hw, _⟩ s hs
    simp only [SText] at hx
    simp only [names] at h
    obtain ⟨n, hx⟩ := hx
    obtain ⟨e, he, h1⟩ := arr_ws hx hw (s := s)
    obtain ⟨r, first', h2, h3⟩ := deTysJ_text ts h v true _ e s he
    rw [P.bind_ok h1, P.bind_ok h2]
    show (endSeq first' >>= _) _ = _
    rw [P.bind_ok (endSeq_after h3 s)]
    rfl
  | .result _ t u, h, .inl y => by
    simp only [deJ]
    intro x hx ws ⟨hw, _⟩ s hs
    simp only [SText] at hx
    simp only [names, Bool.and_eq_true] at h
    obtain ⟨e, ⟨b, m, r, hb, ⟨kx, c, f, z, hk, hc, hf, hz, rfl⟩, hr, rfl⟩, h1⟩ := obj_ws hx hw (s := s)
    have hr : Ws r := hr
    have hkey := deName_text (resultName .str true) rfl kx hk b hb
      (c ++ 0x3A#8 :: (f ++ (z ++ (r ++ 0x7D#8 :: s)))) (noNumber_ws_cons hc (by
        intro b r h; cases h; unfold Digit; decide) _)
    have e1 : b ++ (kx ++ (c ++ 0x3A#8 :: (f ++ z)) ++ r) ++ 0x7D#8 :: s =
      b ++ (kx ++ (c ++ 0x3A#8 :: (f ++ (z ++ (r ++ 0x7D#8 :: s))))) := by simp
    rw [P.bind_ok h1, e1, P.bind_ok hkey, if_pos rfl,
      P.bind_ok (expect_ok (t := .colon) rfl hc _),
      P.bind_ok (deJ_text t h.1 y z hz f hf _ (noNumber_ws_cons hr noNumber_brace s)),
      P.bind_ok (expect_ok (t := .closeBrace) rfl hr s)]
    rfl
  | .result _ t u, h, .inr y => by
    simp only [deJ]
    intro x hx ws ⟨hw, _⟩ s hs
    simp only [SText] at hx
    simp only [names, Bool.and_eq_true] at h
    obtain ⟨e, ⟨b, m, r, hb, ⟨kx, c, f, z, hk, hc, hf, hz, rfl⟩, hr, rfl⟩, h1⟩ := obj_ws hx hw (s := s)
    have hr : Ws r := hr
    have hkey := deName_text (resultName .str false) rfl kx hk b hb
      (c ++ 0x3A#8 :: (f ++ (z ++ (r ++ 0x7D#8 :: s)))) (noNumber_ws_cons hc (by
        intro b r h; cases h; unfold Digit; decide) _)
    have e1 : b ++ (kx ++ (c ++ 0x3A#8 :: (f ++ z)) ++ r) ++ 0x7D#8 :: s =
      b ++ (kx ++ (c ++ 0x3A#8 :: (f ++ (z ++ (r ++ 0x7D#8 :: s))))) := by simp
    rw [P.bind_ok h1, e1, P.bind_ok hkey, if_neg (by decide), if_pos rfl,
      P.bind_ok (expect_ok (t := .colon) rfl hc _),
      P.bind_ok (deJ_text u h.2 y z hz f hf _ (noNumber_ws_cons hr noNumber_brace s)),
      P.bind_ok (expect_ok (t := .closeBrace) rfl hr s)]
    rfl
  | .boxed t, h, v => by
    simp only [deJ]
    intro x hx
    simp only [SText] at hx
    exact deJ_text t (by simpa only [names] using h) v x hx
  | .wrapping t, h, v => by
    simp only [deJ]
    intro x hx
    simp only [SText] at hx
    exact deJ_text t (by simpa only [names] using h) v x hx
  | .transparent t, h, v => by
    simp only [deJ]
    intro x hx
    simp only [SText] at hx
    exact deJ_text t (by simpa only [names] using h) v x hx
  | .strct _ fs, h, v => by
    simp only [deJ]
    intro x hx ws ⟨hw, _⟩ s hs
    simp only [SText] at hx
    simp only [names, Bool.and_eq_true] at h
    obtain ⟨hnd, hty⟩ := namesOk_iff h.1
    obtain ⟨es, hu, hd, ha, hx⟩ := hx
    have := object_inv (body := fun p => do
        let n ← deName
        expect .colon
        deEntryJ full env fs n p) (fs.setAny (β := Name)) (reprEntry fs (sKnown env fs))
      (fun es p => ((es.filterMap Sum.getLeft?).map fs.keyOf).Nodup ∧
        (∀ e ∈ es.filterMap Sum.getLeft?, vacant fs e p) ∧
        ∀ n, .inr n ∈ es → n ∉ fs.names ∧ n.ty = .str)
      (by
        rintro e es p ⟨hN, hV, hU⟩
        cases e with
        | inl k =>
          have hcons : List.filterMap Sum.getLeft? ((Sum.inl k : fs.Known ⊕ Name) :: es) =
            k :: es.filterMap Sum.getLeft? := rfl
          rw [hcons] at hN hV
          rw [List.map_cons, List.nodup_cons] at hN
          refine ⟨⟨hN.2, fun e he => vacant_set fs e k p ?_ (hV e (by simp [he])),
            fun u hu => hU u (by simp [hu])⟩, ?_⟩
          · intro hc
            exact hN.1 (hc ▸ List.mem_map_of_mem (f := fs.keyOf) he)
          · intro x hx s hs
            exact member_textL (deName_text (fs.keyOf k) (hty _ (keyOf_mem fs k)))
              (fun n => deEntryJ full env fs n p)
              (deEntryJ_text fs h.2 hnd k p (hV k (by simp))) x hx [] ws_nil s hs
        | inr n =>
          refine ⟨⟨hN, hV, fun u hu => hU u (by simp [hu])⟩, ?_⟩
          intro x hx s hs
          obtain ⟨h1, h2⟩ := hU n (by simp)
          exact member_text (deName_text n h2) (fun n => deEntryJ full env fs n p)
            (deEntryJ_unknown full env fs n h1 p) x hx [] ws_nil s hs)
      (es := es)
      (fun a _ x hx => by
        cases a with
        | inl k => exact memberL_quote (fun s => nameKey_str) hx
        | inr n => exact member_quote (fun s => nameKey_str) hx)
      fs.none ⟨hd, fun e _ => vacant_none fs e, hu⟩
    rw [P.bind_ok (this x hx ws hw s hs), foldl_known, (finish_iff env fs _ v).mpr ha]
    rfl
  | .unitEnum _ ns, h, v => by
    simp only [deJ]
    intro x hx ws ⟨hw, _⟩ s hs
    simp only [SText] at hx
    simp only [names] at h
    obtain ⟨h1, h2⟩ := namesOk_iff h
    obtain ⟨e, ⟨b, m, r, hb, ⟨kx, c, f, z, hk, hc, hf, hz, rfl⟩, hr, rfl⟩, h1'⟩ := obj_ws hx hw (s := s)
    have hr : Ws r := hr
    have hkey := deName_text ns[v] (h2 _ (List.getElem_mem _)) kx hk b hb
      (c ++ 0x3A#8 :: (f ++ (z ++ (r ++ 0x7D#8 :: s)))) (noNumber_ws_cons hc (by
        intro b r h; cases h; unfold Digit; decide) _)
    have e1 : b ++ (kx ++ (c ++ 0x3A#8 :: (f ++ z)) ++ r) ++ 0x7D#8 :: s =
      b ++ (kx ++ (c ++ 0x3A#8 :: (f ++ (z ++ (r ++ 0x7D#8 :: s))))) := by simp
    rw [P.bind_ok h1', e1, P.bind_ok hkey, findName_get ns h1 v]
    show (expect .colon >>= _) _ = _
    rw [P.bind_ok (expect_ok (t := .colon) rfl hc _),
      P.bind_ok (skip_isValue hf hz (noNumber_ws_cons hr noNumber_brace s)),
      P.bind_ok (expect_ok (t := .closeBrace) rfl hr s)]
    rfl
  | .enm _ vs, h, v => by
    simp only [deJ]
    intro x hx ws ⟨hw, _⟩ s hs
    simp only [SText] at hx
    simp only [names, Bool.and_eq_true] at h
    obtain ⟨hnd, hty⟩ := namesOk_iff h.1
    obtain ⟨e, ⟨b, m, r, hb, hm, hr, rfl⟩, h1⟩ := obj_ws hx hw (s := s)
    have hr : Ws r := hr
    obtain ⟨n, z, k, hn, hk, hnn, hm2, hd⟩ := deVariantsJ_text vs h.2 hnd v m hm
    have hkey := deName_text n (hty n hn) z hk b hb (k ++ (r ++ 0x7D#8 :: s)) (by
      obtain ⟨y, q, rfl, hy⟩ := hnn
      rw [List.append_assoc, List.cons_append]
      exact noNumber_ws_cons hy (by intro b r h; cases h; unfold Digit; decide) _)
    have e1 : b ++ (m ++ r) ++ 0x7D#8 :: s = b ++ (z ++ (k ++ (r ++ 0x7D#8 :: s))) := by simp [hm2]
    rw [P.bind_ok h1, e1, P.bind_ok hkey,
      P.bind_ok (hd _ (noNumber_ws_cons hr noNumber_brace s)),
      P.bind_ok (expect_ok (t := .closeBrace) rfl hr s)]
    rfl
  | .byteArray _, _, _ => by
    intro x hx
    simp only [SText] at hx
  | .packed _ _, _, _ => by
    intro x hx
    simp only [SText] at hx

theorem deTysJ_text : ∀ (ts : Tys), namesTys ts = true → ∀ (v : ts.Val) (first : Bool)
    (qs : List (Bytes → Prop)) (e s : Bytes), After first (sTys env ts v ++ qs) e →
    ∃ r first', deTysJ full env ts first (e ++ 0x5D#8 :: s) =
      .ok ((v, first'), r ++ 0x5D#8 :: s) ∧ After first' qs r
  | .nil, _, v, first, qs, e, s, h => by
    simp only [sTys, List.nil_append] at h
    exact ⟨e, first, by simp only [deTysJ]; rfl, h⟩
  | .cons t ts, hn, v, first, qs, e, s, h => by
    simp only [namesTys, Bool.and_eq_true] at hn
    simp only [sTys, List.cons_append] at h
    obtain ⟨x, r, hx, hr, h1, _⟩ := after_cons h
    have h2 := deJ_text t hn.1 v.1 x hx [] lead_nil _ (more_noNumber hr noNumber_bracket s)
    rw [List.nil_append] at h2
    obtain ⟨r', first', h3, h4⟩ := deTysJ_text ts hn.2 v.2 false qs r s hr
    refine ⟨r', first', ?_, h4⟩
    simp only [deTysJ]
    rw [P.bind_ok (needNext_value (h1 (sText_isValue env t v.1 x hx) _)), P.bind_ok h2, P.bind_ok h3]
    rfl

theorem deEntryJ_text : ∀ (fs : Fields), namesFields fs = true → fs.names.Nodup →
    ∀ (k : fs.Known) (p : fs.Partial), vacant fs k p →
      DecodesL (leadKnown fs k) (deEntryJ full env fs (fs.keyOf k) p) (fs.set k p) (sKnown env fs k)
  | .nil, _, _, k, _, _ => nomatch k
  | .cons n d sk t fs, h, hnd, .inl v, p, hv => by
    simp only [namesFields, Bool.and_eq_true] at h
    have hv : p.1 = none := hv
    simp only [deEntryJ, Fields.keyOf, if_true, hv]
    intro x hx
    simp only [sKnown] at hx
    exact DecodesL.bind (deJ_text t h.1 v) (fun s => rfl) x hx
  | .cons n d sk t fs, h, hnd, .inr k, p, hv => by
    simp only [namesFields, Bool.and_eq_true] at h
    simp only [Fields.names, List.nodup_cons] at hnd
    have hne : ¬ n = fs.keyOf k := fun hc => hnd.1 (hc ▸ keyOf_mem fs k)
    show DecodesL _ (deEntryJ full env (.cons n d sk t fs) (fs.keyOf k) p) _ _
    simp only [deEntryJ]
    rw [if_neg hne]
    intro x hx
    simp only [sKnown] at hx
    exact DecodesL.bind (deEntryJ_text fs h.2 hnd.2 k p.2 hv) (fun s => rfl) x hx

theorem deVariantsJ_text : ∀ (vs : Variants), namesVariants vs = true → vs.names.Nodup →
    ∀ (v : vs.Val) (m : Bytes), sVariant env vs v m →
    ∃ n z k, n ∈ vs.names ∧ NameKey n z ∧ (∃ y q, k = y ++ 0x3A#8 :: q ∧ Ws y) ∧ m = z ++ k ∧
      ∀ s, NoNumber s → deVariantsJ full env vs n (k ++ s) = .ok (v, s)
  | .nil, _, _, v, _, _ => nomatch v
  | .cons n t vs, h, hnd, .inl x, m, hm => by
    simp only [namesVariants, Bool.and_eq_true] at h
    simp only [sVariant] at hm
    obtain ⟨kx, c, f, z, hk, hc, hf, hz, rfl⟩ := hm
    refine ⟨n, kx, _, by simp [Variants.names], hk, ⟨c, f ++ z, rfl, hc⟩, rfl, ?_⟩
    intro s hs
    simp only [deVariantsJ, if_true]
    have e1 : c ++ 0x3A#8 :: (f ++ z) ++ s = c ++ 0x3A#8 :: (f ++ (z ++ s)) := by simp
    rw [e1, P.bind_ok (expect_ok (t := .colon) rfl hc _), P.bind_ok (deJ_text t h.1 x z hz f hf s hs)]
    rfl
  | .cons n t vs, h, hnd, .inr x, m, hm => by
    simp only [namesVariants, Bool.and_eq_true] at h
    simp only [Variants.names, List.nodup_cons] at hnd
    simp only [sVariant] at hm
    obtain ⟨n', z, k, hn, hk, hnn, rfl, hd⟩ := deVariantsJ_text vs h.2 hnd.2 x m hm
    refine ⟨n', z, k, by simp [Variants.names, hn], hk, hnn, rfl, ?_⟩
    intro s hs
    simp only [deVariantsJ]
    have hne : ¬ n = n' := fun hc => hnd.1 (hc ▸ hn)
    rw [if_neg hne, P.bind_ok (hd s hs)]
    rfl

end
end

end Musli.Serde.Json
