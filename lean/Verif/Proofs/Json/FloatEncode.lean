import Verif.Spec.Json.Finite
import Verif.Proofs.Json.WellFormed
/-!
# The encoder with floats: what it writes

As `Proofs/Json/Encode.lean` and `Proofs/Json/WellFormed.lean`, for `Model/Json/FloatCodec.lean`.
-/
set_option linter.unusedSectionVars false
namespace Musli.Json
open Musli Spec

theorem encPrimF_text {R : Ryu} (hR : RyuLawful R) {p : Prim} {v : p.Val} {s : Bytes} (hf : FinitePrim p v)
    (h : encPrimF R p v = .ok s) : PrimText p v s := by
  cases p with
  | f32 => cases h; exact hR.finite32 v hf
  | f64 => cases h; exact hR.finite64 v hf
  | _ => exact encPrim_text h

theorem finite_nonZero (sg : Bool) (w : IW) (v : BitVec w.bits) :
    FinitePrim (nonZeroPrim sg w) (nonZeroRaw sg w v) := by
  cases sg <;> exact trivial

section
variable {R : Ryu} (hR : RyuLawful R) (env : Env)
include hR

mutual

theorem encJF_denotes : ∀ (t : Ty), t.jsonOk = true → t.jsonNames = true → t.envOk env →
    ∀ (v : t.Val), AllFinite t v → ∀ (s : Bytes), encJF R env t v = .ok s → Denotes env t v s
  | .prim _, _, _, _, v, hf, s, h => by
    simp only [AllFinite] at hf; simp only [encJF] at h; simp only [Denotes]; exact encPrimF_text hR hf h
  | .nonZero _ _, _, _, _, v, hf, s, h => by
    simp only [encJF] at h; simp only [Denotes]; exact encPrimF_text hR (finite_nonZero _ _ _) h
  | .unit, _, _, _, v, hf, s, h => by
    simp only [encJF] at h; simp only [Denotes]; cases h; exact Text.null
  | .bytes, _, _, _, v, hf, s, h => by
    simp only [encJF] at h; simp only [Denotes]; exact encBytes_arr h
  | .string, _, _, _, v, hf, s, h => by
    simp only [encJF] at h; simp only [Denotes]; cases h; exact strText_str v
  | .byteArray _, _, _, _, v, hf, s, h => by
    simp only [encJF] at h; simp only [Denotes]; exact encBytes_arr h
  | .option t, _, _, _, none, hf, s, h => by
    simp only [encJF] at h; simp only [Denotes]; cases h; rfl
  | .option t, ho, hn, he, some x, hf, s, h => by
    simp only [encJF] at h
    try simp only [AllFinite] at hf
    simp only [Denotes]
    simp only [Ty.jsonOk, Bool.and_eq_true, Bool.not_eq_true'] at ho
    have := encJF_denotes t ho.2 (by simpa only [Ty.jsonNames] using hn)
      (by simpa only [Ty.envOk] using he) x hf s h
    exact ⟨this, denotes_not_null env t ho.1 x s this⟩
  | .array _ t, ho, hn, he, v, hf, s, h => by
    simp only [encJF] at h
    try simp only [AllFinite] at hf
    simp only [Denotes]
    refine brackets_arr h fun e h => sepAll_after v.1 ?_ true e h
    intro a ha x hx
    exact encJF_denotes t (by simpa only [Ty.jsonOk] using ho) (by simpa only [Ty.jsonNames] using hn)
      (by simpa only [Ty.envOk] using he) a (hf a ha) x hx
  | .vec t, ho, hn, he, v, hf, s, h => by
    simp only [encJF] at h
    try simp only [AllFinite] at hf
    simp only [Denotes]
    refine brackets_arr h fun e h => sepAll_after v ?_ true e h
    intro a ha x hx
    exact encJF_denotes t (by simpa only [Ty.jsonOk] using ho) (by simpa only [Ty.jsonNames] using hn)
      (by simpa only [Ty.envOk] using he) a (hf a ha) x hx
  | .set t, ho, hn, he, v, hf, s, h => by
    simp only [encJF] at h
    try simp only [AllFinite] at hf
    simp only [Denotes]
    refine brackets_arr h fun e h => sepAll_after v ?_ true e h
    intro a ha x hx
    exact encJF_denotes t (by simpa only [Ty.jsonOk] using ho) (by simpa only [Ty.jsonNames] using hn)
      (by simpa only [Ty.envOk] using he) a (hf a ha) x hx
  | .map k t, ho, hn, he, v, hf, s, h => by
    simp only [encJF] at h
    try simp only [AllFinite] at hf
    simp only [Denotes]
    simp only [Ty.jsonNames, Bool.and_eq_true] at hn
    simp only [Ty.envOk] at he
    simp only [Ty.jsonOk] at ho
    refine braces_obj h fun e h => sepAll_after v ?_ true e h
    intro a ha x hx
    exact member_encL lead_nil hx (fun x hx => encKey_text k a.1 x hx)
      (fun x hx => encJF_denotes t ho hn.2 he.2 a.2 (hf a ha) x hx)
  | .tuple ts, ho, hn, he, v, hf, s, h => by
    simp only [encJF] at h
    try simp only [AllFinite] at hf
    simp only [Denotes]
    simp only [Ty.jsonOk] at ho
    simp only [Ty.jsonNames] at hn
    simp only [Ty.envOk] at he
    refine ⟨0, brackets_arr h fun e h => ?_⟩
    rw [List.replicate_zero, List.append_nil]
    exact encTysJF_denotes ts ho hn he v hf true e h
  | .result nt t u, ho, hn, he, .inl v, hf, s, h => by
    simp only [encJF] at h
    try simp only [AllFinite] at hf
    simp only [Denotes]
    simp only [Ty.jsonOk, Bool.and_eq_true] at ho
    simp only [Ty.jsonNames, Bool.and_eq_true] at hn
    simp only [Ty.envOk] at he
    refine braces_obj h fun e h => ?_
    exact ⟨[], e, [], ws_nil, member_encL lead_nil h (fun x hx => encNameK_text hx)
      (fun x hx => encJF_denotes t ho.1 hn.1 he.1 v hf x hx), ws_nil, by simp⟩
  | .result nt t u, ho, hn, he, .inr v, hf, s, h => by
    simp only [encJF] at h
    try simp only [AllFinite] at hf
    simp only [Denotes]
    simp only [Ty.jsonOk, Bool.and_eq_true] at ho
    simp only [Ty.jsonNames, Bool.and_eq_true] at hn
    simp only [Ty.envOk] at he
    refine braces_obj h fun e h => ?_
    exact ⟨[], e, [], ws_nil, member_encL lead_nil h (fun x hx => encNameK_text hx)
      (fun x hx => encJF_denotes u ho.2 hn.2 he.2 v hf x hx), ws_nil, by simp⟩
  | .boxed t, ho, hn, he, v, hf, s, h => by
    simp only [encJF] at h
    try simp only [AllFinite] at hf
    simp only [Denotes]
    exact encJF_denotes t (by simpa only [Ty.jsonOk] using ho) (by simpa only [Ty.jsonNames] using hn)
      (by simpa only [Ty.envOk] using he) v hf s h
  | .wrapping t, ho, hn, he, v, hf, s, h => by
    simp only [encJF] at h
    try simp only [AllFinite] at hf
    simp only [Denotes]
    exact encJF_denotes t (by simpa only [Ty.jsonOk] using ho) (by simpa only [Ty.jsonNames] using hn)
      (by simpa only [Ty.envOk] using he) v hf s h
  | .transparent t, ho, hn, he, v, hf, s, h => by
    simp only [encJF] at h
    try simp only [AllFinite] at hf
    simp only [Denotes]
    exact encJF_denotes t (by simpa only [Ty.jsonOk] using ho) (by simpa only [Ty.jsonNames] using hn)
      (by simpa only [Ty.envOk] using he) v hf s h
  | .unitStruct, _, _, _, v, hf, s, h => by
    simp only [encJF] at h
    try simp only [AllFinite] at hf
    simp only [Denotes]
    cases h
    exact ⟨Text.emptyObject (ws := []) ws_nil, _, rfl⟩
  | .strct nt fs, ho, hn, he, v, hf, s, h => by
    simp only [encJF] at h
    try simp only [AllFinite] at hf
    simp only [Denotes]
    simp only [Ty.jsonOk, Bool.and_eq_true] at ho
    simp only [Ty.jsonNames, Bool.and_eq_true] at hn
    simp only [Ty.envOk] at he
    refine ⟨(fs.entries env v).map .inl, ?_, ?_, ?_⟩
    · intro n hn
      obtain ⟨_, _, h⟩ := List.mem_map.1 hn
      cases h
    · have : (List.map Sum.inl (fs.entries env v)).filterMap
          (Sum.getLeft? (α := fs.Known) (β := Name)) = fs.entries env v := by
        rw [List.filterMap_map]
        exact List.filterMap_some
      rw [this]
      exact assemble_perm env fs ho.1 he v _ (List.Perm.refl _)
    · rw [List.map_map]
      exact braces_obj h fun e h => encFieldsJF_denotes fs ho.2 hn.2 he v hf true e h
  | .packed _ fs, ho, hn, he, v, hf, s, h => by
    simp only [encJF] at h
    try simp only [AllFinite] at hf
    simp only [Denotes]
    simp only [Ty.jsonOk, Bool.and_eq_true] at ho
    simp only [Ty.jsonNames] at hn
    simp only [Ty.envOk] at he
    refine ⟨0, brackets_arr h fun e h => ?_⟩
    rw [List.replicate_zero, List.append_nil]
    exact encPackJF_denotes fs ho.2 ho.1 hn he v hf true e h
  | .unitEnum _ names, _, _, _, v, hf, s, h => by
    simp only [encJF] at h; simp only [Denotes]; exact encNameV_text h
  | .enm _ vs, ho, hn, he, v, hf, s, h => by
    simp only [encJF] at h
    try simp only [AllFinite] at hf
    simp only [Denotes]
    simp only [Ty.jsonOk] at ho
    simp only [Ty.jsonNames, Bool.and_eq_true] at hn
    simp only [Ty.envOk] at he
    refine braces_obj h fun e h => ?_
    exact ⟨[], e, [], ws_nil, encVariantsJF_denotes vs ho hn.2 he v hf e h, ws_nil, by simp⟩

theorem encTysJF_denotes : ∀ (ts : Tys), ts.jsonOk = true → ts.jsonNames = true → ts.envOk env →
    ∀ (v : ts.Val), FiniteTys ts v → ∀ (first : Bool) (s : Bytes), encTysJF R env ts first v = .ok s →
      After first (reprTys env ts v) s
  | .nil, _, _, _, v, hf, first, s, h => by
    simp only [encTysJF] at h; cases h; simp only [reprTys]; exact after_nilI first
  | .cons t ts, ho, hn, he, v, hf, first, s, h => by
    simp only [encTysJF] at h
    try simp only [FiniteTys] at hf
    simp only [reprTys]
    simp only [Tys.jsonOk, Bool.and_eq_true] at ho
    simp only [Tys.jsonNames, Bool.and_eq_true] at hn
    simp only [Tys.envOk] at he
    obtain ⟨c, y, hc, hy, rfl⟩ := Enc.seq_eq_ok.mp h
    obtain ⟨x, r, hx, hr, rfl⟩ := Enc.seq_eq_ok.mp hy
    exact after_consI hc (encJF_denotes t ho.1 hn.1 he.1 v.1 hf.1 x hx)
      (encTysJF_denotes ts ho.2 hn.2 he.2 v.2 hf.2 false r hr)

theorem encFieldsJF_denotes : ∀ (fs : Fields), fs.jsonOk = true → fs.jsonNames = true →
    fs.envOk env → ∀ (v : fs.Val), FiniteFields fs v → ∀ (first : Bool) (s : Bytes), encFieldsJF R env fs first v = .ok s →
      After first ((fs.entries env v).map (reprEntry fs (reprKnown env fs) ∘ Sum.inl)) s
  | .nil, _, _, _, v, hf, first, s, h => by
    simp only [encFieldsJF] at h; cases h; exact after_nilI first
  | .cons n d sk t fs, ho, hn, he, v, hf, first, s, h => by
    simp only [encFieldsJF] at h
    try simp only [FiniteFields] at hf
    simp only [Fields.jsonOk, Bool.and_eq_true] at ho
    simp only [Fields.jsonNames, Bool.and_eq_true] at hn
    simp only [Fields.envOk] at he
    have hm := entries_members env (fun fs => reprKnown env fs) (n := n) (d := d) v
      (fun k => by funext s; simp only [reprKnown])
    have hm' : ((Fields.cons n d sk t fs).entries env v).map
      (reprEntry (.cons n d sk t fs) (reprKnown env (.cons n d sk t fs)) ∘ Sum.inl) = _ := hm
    rw [hm']
    cases hp : fieldPresent env sk t v.1 with
    | false =>
      rw [hp] at h
      simp only [Bool.false_eq_true, if_false, List.nil_append] at h ⊢
      exact encFieldsJF_denotes fs ho.2 hn.2 he.2.2 v.2 hf.2 first s h
    | true =>
      rw [hp] at h
      simp only [if_true, List.cons_append, List.nil_append] at h ⊢
      obtain ⟨c, y, hc, hy, rfl⟩ := Enc.seq_eq_ok.mp h
      obtain ⟨kx, z, hk, hz, rfl⟩ := Enc.seq_eq_ok.mp hy
      obtain ⟨co, z', hco, hz', rfl⟩ := Enc.seq_eq_ok.mp hz
      obtain ⟨x, r, hx, hr, rfl⟩ := Enc.seq_eq_ok.mp hz'
      cases hco
      have hmem : MemberL (NameKey n) (Lead t) (reprKnown env (.cons n d sk t fs) (.inl v.1))
          (kx ++ (0x3A#8 :: x)) :=
        ⟨kx, [], [], x, encNameK_text hk, ws_nil, lead_nil, by
          simp only [reprKnown]
          exact encJF_denotes t ho.1 hn.1 he.2.1 v.1 hf.1 x hx, rfl⟩
      have := after_consI hc hmem (encFieldsJF_denotes fs ho.2 hn.2 he.2.2 v.2 hf.2 false r hr)
      simpa [Function.comp_def] using this

theorem encPackJF_denotes : ∀ (fs : Fields), fs.jsonOk = true → fs.neverSkip = true →
    fs.jsonNames = true → fs.envOk env →
    ∀ (v : fs.Val), FiniteFields fs v → ∀ (first : Bool) (s : Bytes), encPackJF R env fs first v = .ok s →
      After first (reprFields env fs v) s
  | .nil, _, _, _, _, v, hf, first, s, h => by
    simp only [encPackJF] at h; cases h; simp only [reprFields]; exact after_nilI first
  | .cons n d sk t ts, ho, hs, hn, he, v, hf, first, s, h => by
    simp only [encPackJF] at h
    try simp only [FiniteFields] at hf
    simp only [reprFields]
    simp only [Fields.jsonOk, Bool.and_eq_true] at ho
    simp only [Fields.jsonNames, Bool.and_eq_true] at hn
    simp only [Fields.envOk] at he
    simp only [Fields.neverSkip, Bool.and_eq_true, Option.isNone_iff_eq_none] at hs
    rw [hs.1] at h
    simp only [fieldPresent, if_true] at h
    obtain ⟨c, y, hc, hy, rfl⟩ := Enc.seq_eq_ok.mp h
    obtain ⟨x, r, hx, hr, rfl⟩ := Enc.seq_eq_ok.mp hy
    exact after_consI hc (encJF_denotes t ho.1 hn.1 he.2.1 v.1 hf.1 x hx)
      (encPackJF_denotes ts ho.2 hs.2 hn.2 he.2.2 v.2 hf.2 false r hr)

theorem encVariantsJF_denotes : ∀ (vs : Variants), vs.jsonOk = true → vs.jsonNames = true →
    vs.envOk env → ∀ (v : vs.Val), FiniteVariants vs v → ∀ (s : Bytes), encVariantsJF R env vs v = .ok s →
      reprVariant env vs v s
  | .nil, _, _, _, v, _, _, _ => nomatch v
  | .cons n t vs, ho, hn, he, .inl x, hf, s, h => by
    simp only [encVariantsJF] at h
    try simp only [FiniteVariants] at hf
    simp only [reprVariant]
    simp only [Variants.jsonOk, Bool.and_eq_true] at ho
    simp only [Variants.jsonNames, Bool.and_eq_true] at hn
    simp only [Variants.envOk] at he
    exact member_encL lead_nil h (fun x hx => encNameK_text hx)
      (fun y hy => encJF_denotes t ho.1 hn.1 he.1 x hf y hy)
  | .cons n t vs, ho, hn, he, .inr x, hf, s, h => by
    simp only [encVariantsJF] at h
    try simp only [FiniteVariants] at hf
    simp only [reprVariant]
    simp only [Variants.jsonOk, Bool.and_eq_true] at ho
    simp only [Variants.jsonNames, Bool.and_eq_true] at hn
    simp only [Variants.envOk] at he
    exact encVariantsJF_denotes vs ho.2 hn.2 he.2 x hf s h

end

mutual

theorem encJF_isValue : ∀ (t : Ty) (v : t.Val), AllFinite t v → ∀ (s : Bytes), encJF R env t v = .ok s → IsValue s
  | .prim _, v, hf, s, h => by
    simp only [AllFinite] at hf; simp only [encJF] at h; exact primText_isValue (encPrimF_text hR hf h)
  | .nonZero _ _, v, hf, s, h => by
    simp only [encJF] at h; exact primText_isValue (encPrimF_text hR (finite_nonZero _ _ _) h)
  | .unit, v, hf, s, h => by simp only [encJF] at h; cases h; exact Text.null
  | .bytes, v, hf, s, h => by
    simp only [encJF] at h
    try simp only [AllFinite] at hf
    refine arr_isValue ?_ (encBytes_arr h)
    intro p hp x hx
    obtain ⟨b, _, rfl⟩ := List.mem_map.1 hp
    exact natText_isValue hx
  | .string, v, hf, s, h => by
    simp only [encJF] at h; cases h
    obtain ⟨cs, _, h⟩ := strText_str v
    exact strText_isValue h
  | .byteArray _, v, hf, s, h => by
    simp only [encJF] at h
    try simp only [AllFinite] at hf
    refine arr_isValue ?_ (encBytes_arr h)
    intro p hp x hx
    obtain ⟨b, _, rfl⟩ := List.mem_map.1 hp
    exact natText_isValue hx
  | .option t, none, hf, s, h => by simp only [encJF] at h; cases h; exact Text.null
  | .option t, some x, hf, s, h => by simp only [encJF] at h; simp only [AllFinite] at hf; exact encJF_isValue t x hf s h
  | .array _ t, v, hf, s, h => by
    simp only [encJF] at h
    try simp only [AllFinite] at hf
    exact brackets_isValue h fun e he => sepAll_all v.1 (fun a ha x hx => encJF_isValue t a (hf a ha) x hx) _ _ he
  | .vec t, v, hf, s, h => by
    simp only [encJF] at h
    try simp only [AllFinite] at hf
    exact brackets_isValue h fun e he => sepAll_all v (fun a ha x hx => encJF_isValue t a (hf a ha) x hx) _ _ he
  | .set t, v, hf, s, h => by
    simp only [encJF] at h
    try simp only [AllFinite] at hf
    exact brackets_isValue h fun e he => sepAll_all v (fun a ha x hx => encJF_isValue t a (hf a ha) x hx) _ _ he
  | .map k t, v, hf, s, h => by
    simp only [encJF] at h
    try simp only [AllFinite] at hf
    refine braces_isValue h fun e he => sepAll_all v (fun a ha x hx => ?_) _ _ he
    exact member_enc hx (fun y hy => keyText_str k (encKey_text k a.1 y hy))
      (fun y hy => encJF_isValue t a.2 (hf a ha) y hy)
  | .tuple ts, v, hf, s, h => by
    simp only [encJF] at h
    try simp only [AllFinite] at hf
    exact brackets_isValue h fun e he => encTysJF_isValue ts v hf _ e he
  | .result nt t u, .inl v, hf, s, h => by
    simp only [encJF] at h
    try simp only [AllFinite] at hf
    exact braces_isValue h fun e he => member_one he (fun x hx => nameKey_str (encNameK_text hx))
      (fun x hx => encJF_isValue t v hf x hx)
  | .result nt t u, .inr v, hf, s, h => by
    simp only [encJF] at h
    try simp only [AllFinite] at hf
    exact braces_isValue h fun e he => member_one he (fun x hx => nameKey_str (encNameK_text hx))
      (fun x hx => encJF_isValue u v hf x hx)
  | .boxed t, v, hf, s, h => by simp only [encJF] at h; simp only [AllFinite] at hf; exact encJF_isValue t v hf s h
  | .wrapping t, v, hf, s, h => by simp only [encJF] at h; simp only [AllFinite] at hf; exact encJF_isValue t v hf s h
  | .transparent t, v, hf, s, h => by simp only [encJF] at h; simp only [AllFinite] at hf; exact encJF_isValue t v hf s h
  | .unitStruct, v, hf, s, h => by
    simp only [encJF] at h
    try simp only [AllFinite] at hf
    exact braces_isValue h fun e he => by cases he; exact afterAll_nil true
  | .strct _ fs, v, hf, s, h => by
    simp only [encJF] at h
    try simp only [AllFinite] at hf
    exact braces_isValue h fun e he => encFieldsJF_isValue fs v hf _ e he
  | .packed _ fs, v, hf, s, h => by
    simp only [encJF] at h
    try simp only [AllFinite] at hf
    exact brackets_isValue h fun e he => encPackJF_isValue fs v hf _ e he
  | .unitEnum _ names, v, hf, s, h => by
    simp only [encJF] at h; exact nameText_isValue (encNameV_text h)
  | .enm _ vs, v, hf, s, h => by
    simp only [encJF] at h
    try simp only [AllFinite] at hf
    exact braces_isValue h fun e he => encVariantsJF_isValue vs v hf e he

theorem encTysJF_isValue : ∀ (ts : Tys) (v : ts.Val), FiniteTys ts v → ∀ (first : Bool) (s : Bytes),
    encTysJF R env ts first v = .ok s → AfterAll IsValue first s
  | .nil, v, hf, first, s, h => by simp only [encTysJF] at h; cases h; exact afterAll_nil first
  | .cons t ts, v, hf, first, s, h => by
    simp only [encTysJF] at h
    try simp only [FiniteTys] at hf
    obtain ⟨c, y, hc, hy, rfl⟩ := Enc.seq_eq_ok.mp h
    obtain ⟨x, r, hx, hr, rfl⟩ := Enc.seq_eq_ok.mp hy
    exact afterAll_cons hc (encJF_isValue t v.1 hf.1 x hx) (encTysJF_isValue ts v.2 hf.2 false r hr)

theorem encFieldsJF_isValue : ∀ (fs : Fields) (v : fs.Val), FiniteFields fs v → ∀ (first : Bool) (s : Bytes),
    encFieldsJF R env fs first v = .ok s → AfterAll IsMember first s
  | .nil, v, hf, first, s, h => by simp only [encFieldsJF] at h; cases h; exact afterAll_nil first
  | .cons n d sk t fs, v, hf, first, s, h => by
    simp only [encFieldsJF] at h
    try simp only [FiniteFields] at hf
    cases hp : fieldPresent env sk t v.1 with
    | false =>
      rw [hp] at h
      exact encFieldsJF_isValue fs v.2 hf.2 first s h
    | true =>
      rw [hp] at h
      simp only [if_true] at h
      obtain ⟨c, y, hc, hy, rfl⟩ := Enc.seq_eq_ok.mp h
      obtain ⟨kx, z, hk, hz, rfl⟩ := Enc.seq_eq_ok.mp hy
      obtain ⟨co, z', hco, hz', rfl⟩ := Enc.seq_eq_ok.mp hz
      obtain ⟨x, r, hx, hr, rfl⟩ := Enc.seq_eq_ok.mp hz'
      cases hco
      have hmem : IsMember (kx ++ (0x3A#8 :: x)) :=
        ⟨kx, [], [], x, nameKey_str (encNameK_text hk), ws_nil, ws_nil, encJF_isValue t v.1 hf.1 x hx, rfl⟩
      have := afterAll_cons hc hmem (encFieldsJF_isValue fs v.2 hf.2 false r hr)
      simpa using this

theorem encPackJF_isValue : ∀ (fs : Fields) (v : fs.Val), FiniteFields fs v → ∀ (first : Bool) (s : Bytes),
    encPackJF R env fs first v = .ok s → AfterAll IsValue first s
  | .nil, v, hf, first, s, h => by simp only [encPackJF] at h; cases h; exact afterAll_nil first
  | .cons n d sk t ts, v, hf, first, s, h => by
    simp only [encPackJF] at h
    try simp only [FiniteFields] at hf
    cases hp : fieldPresent env sk t v.1 with
    | false =>
      rw [hp] at h
      exact encPackJF_isValue ts v.2 hf.2 first s h
    | true =>
      rw [hp] at h
      simp only [if_true] at h
      obtain ⟨c, y, hc, hy, rfl⟩ := Enc.seq_eq_ok.mp h
      obtain ⟨x, r, hx, hr, rfl⟩ := Enc.seq_eq_ok.mp hy
      exact afterAll_cons hc (encJF_isValue t v.1 hf.1 x hx) (encPackJF_isValue ts v.2 hf.2 false r hr)

theorem encVariantsJF_isValue : ∀ (vs : Variants) (v : vs.Val), FiniteVariants vs v → ∀ (s : Bytes),
    encVariantsJF R env vs v = .ok s → AfterAll IsMember true s
  | .nil, v, _, _, _ => nomatch v
  | .cons n t vs, .inl x, hf, s, h => by
    simp only [encVariantsJF] at h
    try simp only [FiniteVariants] at hf
    exact member_one h (fun x hx => nameKey_str (encNameK_text hx)) (fun y hy => encJF_isValue t x hf y hy)
  | .cons n t vs, .inr x, hf, s, h => by
    simp only [encVariantsJF] at h; exact encVariantsJF_isValue vs x hf s h

end

end

/-! ## It extends the encoder without floats -/

section
variable (R : Ryu) (env : Env)

theorem encPrimF_of {p : Prim} {v : p.Val} {s : Bytes} (h : encPrim p v = .ok s) : encPrimF R p v = .ok s := by
  cases p with
  | f32 => cases h
  | f64 => cases h
  | _ => exact h

theorem seq_imp {a b a' b' : Enc} {s : Bytes} (h : (a +> b) = .ok s) (ha : ∀ x, a = .ok x → a' = .ok x)
    (hb : ∀ x, b = .ok x → b' = .ok x) : (a' +> b') = .ok s := by
  obtain ⟨x, y, hx, hy, rfl⟩ := Enc.seq_eq_ok.mp h
  exact Enc.seq_eq_ok.mpr ⟨x, y, ha x hx, hb y hy, rfl⟩

theorem brackets_imp {b b' : Enc} {s : Bytes} (h : brackets b = .ok s) (hb : ∀ x, b = .ok x → b' = .ok x) :
    brackets b' = .ok s := seq_imp h (fun _ h => h) fun _ h => seq_imp h hb fun _ h => h

theorem braces_imp {b b' : Enc} {s : Bytes} (h : braces b = .ok s) (hb : ∀ x, b = .ok x → b' = .ok x) :
    braces b' = .ok s := seq_imp h (fun _ h => h) fun _ h => seq_imp h hb fun _ h => h

theorem sepAll_imp {α} {f g : α → Enc} : ∀ (l : List α), (∀ a ∈ l, ∀ x, f a = .ok x → g a = .ok x) →
    ∀ (first : Bool) (s : Bytes), sepAll f first l = .ok s → sepAll g first l = .ok s
  | [], _, _, _, h => h
  | a :: l, hp, _, _, h => seq_imp h (fun _ h => h) fun _ h => seq_imp h (hp a (by simp))
      (sepAll_imp l (fun b hb => hp b (by simp [hb])) false)

mutual

theorem encJF_of : ∀ (t : Ty) (v : t.Val) (s : Bytes), encJ env t v = .ok s → encJF R env t v = .ok s
  | .prim _, v, s, h => by simp only [encJ] at h; simp only [encJF]; exact encPrimF_of R h
  | .nonZero _ _, v, s, h => by simp only [encJ] at h; simp only [encJF]; exact encPrimF_of R h
  | .unit, v, s, h => by simp only [encJ] at h; simp only [encJF]; exact h
  | .bytes, v, s, h => by simp only [encJ] at h; simp only [encJF]; exact h
  | .string, v, s, h => by simp only [encJ] at h; simp only [encJF]; exact h
  | .byteArray _, v, s, h => by simp only [encJ] at h; simp only [encJF]; exact h
  | .option t, none, s, h => by simp only [encJ] at h; simp only [encJF]; exact h
  | .option t, some x, s, h => by simp only [encJ] at h; simp only [encJF]; exact encJF_of t x s h
  | .array _ t, v, s, h => by
    simp only [encJ] at h; simp only [encJF]
    exact brackets_imp h fun e he => sepAll_imp v.1 (fun a _ x hx => encJF_of t a x hx) _ _ he
  | .vec t, v, s, h => by
    simp only [encJ] at h; simp only [encJF]
    exact brackets_imp h fun e he => sepAll_imp v (fun a _ x hx => encJF_of t a x hx) _ _ he
  | .set t, v, s, h => by
    simp only [encJ] at h; simp only [encJF]
    exact brackets_imp h fun e he => sepAll_imp v (fun a _ x hx => encJF_of t a x hx) _ _ he
  | .map k t, v, s, h => by
    simp only [encJ] at h; simp only [encJF]
    exact braces_imp h fun e he => sepAll_imp v (fun a _ x hx =>
      seq_imp hx (fun _ h => h) fun _ h => seq_imp h (fun _ h => h) (encJF_of t a.2)) _ _ he
  | .tuple ts, v, s, h => by
    simp only [encJ] at h; simp only [encJF]
    exact brackets_imp h (encTysJF_of ts v true)
  | .result nt t u, .inl v, s, h => by
    simp only [encJ] at h; simp only [encJF]
    exact braces_imp h fun _ h => seq_imp h (fun _ h => h) fun _ h => seq_imp h (fun _ h => h) (encJF_of t v)
  | .result nt t u, .inr v, s, h => by
    simp only [encJ] at h; simp only [encJF]
    exact braces_imp h fun _ h => seq_imp h (fun _ h => h) fun _ h => seq_imp h (fun _ h => h) (encJF_of u v)
  | .boxed t, v, s, h => by simp only [encJ] at h; simp only [encJF]; exact encJF_of t v s h
  | .wrapping t, v, s, h => by simp only [encJ] at h; simp only [encJF]; exact encJF_of t v s h
  | .transparent t, v, s, h => by simp only [encJ] at h; simp only [encJF]; exact encJF_of t v s h
  | .unitStruct, v, s, h => by simp only [encJ] at h; simp only [encJF]; exact h
  | .strct _ fs, v, s, h => by
    simp only [encJ] at h; simp only [encJF]
    exact braces_imp h (encFieldsJF_of fs v true)
  | .packed _ fs, v, s, h => by
    simp only [encJ] at h; simp only [encJF]
    exact brackets_imp h (encPackJF_of fs v true)
  | .unitEnum _ names, v, s, h => by simp only [encJ] at h; simp only [encJF]; exact h
  | .enm _ vs, v, s, h => by
    simp only [encJ] at h; simp only [encJF]
    exact braces_imp h (encVariantsJF_of vs v)

theorem encTysJF_of : ∀ (ts : Tys) (v : ts.Val) (first : Bool) (s : Bytes),
    encTysJ env ts first v = .ok s → encTysJF R env ts first v = .ok s
  | .nil, v, first, s, h => by simp only [encTysJ] at h; simp only [encTysJF]; exact h
  | .cons t ts, v, first, s, h => by
    simp only [encTysJ] at h; simp only [encTysJF]
    exact seq_imp h (fun _ h => h) fun _ h => seq_imp h (encJF_of t v.1) (encTysJF_of ts v.2 false)

theorem encFieldsJF_of : ∀ (fs : Fields) (v : fs.Val) (first : Bool) (s : Bytes),
    encFieldsJ env fs first v = .ok s → encFieldsJF R env fs first v = .ok s
  | .nil, v, first, s, h => by simp only [encFieldsJ] at h; simp only [encFieldsJF]; exact h
  | .cons n d sk t fs, v, first, s, h => by
    simp only [encFieldsJ] at h; simp only [encFieldsJF]
    split at h <;> rename_i hp
    · rw [if_pos hp]
      exact seq_imp h (fun _ h => h) fun _ h => seq_imp h (fun _ h => h) fun _ h => seq_imp h (fun _ h => h)
        fun _ h => seq_imp h (encJF_of t v.1) (encFieldsJF_of fs v.2 false)
    · rw [if_neg hp]; exact encFieldsJF_of fs v.2 first s h

theorem encPackJF_of : ∀ (fs : Fields) (v : fs.Val) (first : Bool) (s : Bytes),
    encPackJ env fs first v = .ok s → encPackJF R env fs first v = .ok s
  | .nil, v, first, s, h => by simp only [encPackJ] at h; simp only [encPackJF]; exact h
  | .cons n d sk t fs, v, first, s, h => by
    simp only [encPackJ] at h; simp only [encPackJF]
    split at h <;> rename_i hp
    · rw [if_pos hp]
      exact seq_imp h (fun _ h => h) fun _ h => seq_imp h (encJF_of t v.1) (encPackJF_of fs v.2 false)
    · rw [if_neg hp]; exact encPackJF_of fs v.2 first s h

theorem encVariantsJF_of : ∀ (vs : Variants) (v : vs.Val) (s : Bytes),
    encVariantsJ env vs v = .ok s → encVariantsJF R env vs v = .ok s
  | .nil, v, _, _ => nomatch v
  | .cons n t vs, .inl x, s, h => by
    simp only [encVariantsJ] at h; simp only [encVariantsJF]
    exact seq_imp h (fun _ h => h) fun _ h => seq_imp h (fun _ h => h) (encJF_of t x)
  | .cons n t vs, .inr x, s, h => by
    simp only [encVariantsJ] at h; simp only [encVariantsJF]
    exact encVariantsJF_of vs x s h

end
end

end Musli.Json
