import Verif.Proofs.Serde.JsonText
import Verif.Proofs.Serde.Data
import Verif.Proofs.Json.Encode
/-!
# What the serde bridge writes is a JSON text for the value
-/
set_option linter.unusedSectionVars false
namespace Musli.Serde.Json
open Musli.Json Musli.Json.Spec

section
variable (env : Env)

theorem sText_not_null : ∀ (t : Ty), nullable t = false → ∀ (v : t.Val) (s : Bytes),
    SText env t v s → s ≠ strNull
  | .prim _, _, v, s, h => by simp only [SText] at h; exact primText_not_null h
  | .nonZero _ _, _, v, s, h => by simp only [SText] at h; exact primText_not_null h
  | .unit, hn, _, _, _ => by simp [nullable] at hn
  | .unitStruct, hn, _, _, _ => by simp [nullable] at hn
  | .option t, hn, _, s, h => by simp [nullable] at hn
  | .bytes, _, v, s, h => by simp only [SText] at h; exact arr_not_null h
  | .string, _, v, s, h => by
    simp only [SText] at h
    obtain ⟨cs, _, h⟩ := h
    exact strText_not_null h
  | .byteArray _, _, v, s, h => by simp only [SText] at h
  | .packed _ _, _, v, s, h => by simp only [SText] at h
  | .array _ t, _, v, s, h => by
    simp only [SText] at h
    obtain ⟨n, h⟩ := h
    exact arr_not_null h
  | .vec t, _, v, s, h => by simp only [SText] at h; exact arr_not_null h
  | .set t, _, v, s, h => by simp only [SText] at h; exact arr_not_null h
  | .map k t, _, v, s, h => by simp only [SText] at h; exact obj_not_null h
  | .tuple ts, _, v, s, h => by
    simp only [SText] at h
    obtain ⟨n, h⟩ := h
    exact arr_not_null h
  | .result nt t u, _, .inl v, s, h => by simp only [SText] at h; exact obj_not_null h
  | .result nt t u, _, .inr v, s, h => by simp only [SText] at h; exact obj_not_null h
  | .boxed t, hn, v, s, h => by
    simp only [SText] at h
    exact sText_not_null t (by simpa [nullable] using hn) v s h
  | .wrapping t, hn, v, s, h => by
    simp only [SText] at h
    exact sText_not_null t (by simpa [nullable] using hn) v s h
  | .transparent t, hn, v, s, h => by
    simp only [SText] at h
    exact sText_not_null t (by simpa [nullable] using hn) v s h
  | .strct nt fs, _, v, s, h => by
    simp only [SText] at h
    obtain ⟨es, _, _, _, h⟩ := h
    exact obj_not_null h
  | .unitEnum _ names, _, v, s, h => by simp only [SText] at h; exact obj_not_null h
  | .enm _ vs, _, v, s, h => by simp only [SText] at h; exact obj_not_null h

theorem serPrim_text {p : Prim} {v : p.Val} {s : Bytes} (h : serJ (primData p v) = .ok s) :
    PrimText p v s := by
  cases p with
  | bool => simp only [primData, serJ] at h; exact encPrim_text h
  | char => simp only [primData, serJ] at h; exact encPrim_text h
  | uint w => simp only [primData, serJ] at h; exact encPrim_text h
  | sint w => simp only [primData, serJ] at h; exact encPrim_text h
  | usize => simp only [primData, serJ] at h; exact encPrim_text (p := .uint .w64) h
  | isize => simp only [primData, serJ] at h; exact encPrim_text (p := .sint .w64) h
  | f32 => simp only [primData, serJ] at h; exact encPrim_text h
  | f64 => simp only [primData, serJ] at h; exact encPrim_text h

theorem serPrimKey_text {p : Prim} {v : p.Val} {s : Bytes} (h : serKey (primData p v) = .ok s) :
    PrimKey p v s := by
  cases p with
  | bool => cases h
  | char => cases h
  | uint w => simp only [primData, serKey] at h; exact encPrimKey_text h
  | sint w => simp only [primData, serKey] at h; exact encPrimKey_text h
  | usize => simp only [primData, serKey] at h; exact encPrimKey_text (p := .uint .w64) h
  | isize => simp only [primData, serKey] at h; exact encPrimKey_text (p := .sint .w64) h
  | f32 => cases h
  | f64 => cases h

theorem dataVariants_key : ∀ (vs : Variants) (v : vs.Val) (d : SData), dataVariants env vs v = some d →
    serKey d = .error .unsupported
  | .nil, v, _, _ => nomatch v
  | .cons n t vs, .inl x, d, h => by
    rw [dataVariants] at h
    cases n with
    | idx _ => cases hd : dataOf env t x <;> rw [hd] at h <;> cases h
    | str n =>
      cases hd : dataOf env t x with
      | none => rw [hd] at h; cases h
      | some d' => rw [hd] at h; cases d' <;> cases h <;> rfl
  | .cons n t vs, .inr x, d, h => by
    rw [dataVariants] at h
    exact dataVariants_key vs x d h

theorem serKey_text : ∀ (t : Ty) (v : t.Val) (d : SData) (s : Bytes), dataOf env t v = some d →
    serKey d = .ok s → SKey t v s
  | .prim p, v, d, s, hd, h => by rw [dataOf] at hd; cases hd; exact serPrimKey_text h
  | .nonZero _ _, v, d, s, hd, h => by rw [dataOf] at hd; cases hd; exact serPrimKey_text h
  | .string, v, d, s, hd, h => by rw [dataOf] at hd; cases hd; cases h; exact strText_str v
  | .boxed t, v, d, s, hd, h => by rw [dataOf] at hd; exact serKey_text t v d s hd h
  | .wrapping t, v, d, s, hd, h => by rw [dataOf] at hd; exact serKey_text t v d s hd h
  | .transparent t, v, d, s, hd, h => by
    rw [dataOf] at hd
    obtain ⟨d', h1, rfl⟩ := Option.map_eq_some_iff.mp hd
    rw [serKey] at h
    exact serKey_text t v d' s h1 h
  | .unit, _, d, _, hd, h => by rw [dataOf] at hd; cases hd; cases h
  | .bytes, _, d, _, hd, h => by rw [dataOf] at hd; cases hd; cases h
  | .byteArray _, _, d, _, hd, h => by rw [dataOf] at hd; cases hd
  | .option _, none, d, _, hd, h => by rw [dataOf] at hd; cases hd; cases h
  | .option _, some x, d, _, hd, h => by
    rw [dataOf] at hd
    obtain ⟨d', h1, rfl⟩ := Option.map_eq_some_iff.mp hd
    cases h
  | .array _ _, v, d, _, hd, h => by
    rw [dataOf] at hd
    obtain ⟨d', h1, rfl⟩ := Option.map_eq_some_iff.mp hd
    cases h
  | .vec _, v, d, _, hd, h => by
    rw [dataOf] at hd
    obtain ⟨d', h1, rfl⟩ := Option.map_eq_some_iff.mp hd
    cases h
  | .set _, v, d, _, hd, h => by
    rw [dataOf] at hd
    obtain ⟨d', h1, rfl⟩ := Option.map_eq_some_iff.mp hd
    cases h
  | .map _ _, v, d, _, hd, h => by
    rw [dataOf] at hd
    obtain ⟨d', h1, rfl⟩ := Option.map_eq_some_iff.mp hd
    cases h
  | .tuple _, v, d, _, hd, h => by
    rw [dataOf] at hd
    obtain ⟨d', h1, rfl⟩ := Option.map_eq_some_iff.mp hd
    cases h
  | .result _ _ _, .inl x, d, _, hd, h => by
    rw [dataOf] at hd
    obtain ⟨d', h1, h2⟩ := Option.bind_eq_some_iff.mp hd
    cases h2
    cases h
  | .result _ _ _, .inr x, d, _, hd, h => by
    rw [dataOf] at hd
    obtain ⟨d', h1, h2⟩ := Option.bind_eq_some_iff.mp hd
    cases h2
    cases h
  | .unitStruct, _, d, _, hd, h => by rw [dataOf] at hd; cases hd; cases h
  | .strct _ _, v, d, _, hd, h => by
    rw [dataOf] at hd
    obtain ⟨d', h1, rfl⟩ := Option.map_eq_some_iff.mp hd
    cases h
  | .packed _ _, _, d, _, hd, h => by rw [dataOf] at hd; cases hd
  | .unitEnum _ names, v, d, _, hd, h => by
    rw [dataOf] at hd
    cases hn : names[v] with
    | idx _ => rw [hn] at hd; cases hd
    | str n => rw [hn] at hd; cases hd; cases h
  | .enm _ vs, v, d, s, hd, h => by
    rw [dataOf] at hd
    rw [dataVariants_key env vs v d hd] at h
    cases h

/-! ## Sequences and maps -/

theorem serSeqJ_after {α} {f : α → Option SData} {p : α → Bytes → Prop} :
    ∀ (l : List α), (∀ a ∈ l, ∀ d x, f a = some d → serJ d = .ok x → p a x) →
    ∀ (ds : List SData), dataAll f l = some ds → ∀ (first : Bool) (s : Bytes),
      serSeqJ first ds = .ok s → After first (l.map p) s
  | [], _, ds, hd, first, s, h => by
    cases hd
    rw [serSeqJ] at h
    cases h; exact after_nilI first
  | a :: l, hp, ds, hd, first, s, h => by
    simp only [dataAll, Option.bind_eq_some_iff, Option.map_eq_some_iff] at hd
    obtain ⟨d, h1, ds', h2, rfl⟩ := hd
    rw [serSeqJ] at h
    obtain ⟨c, y, hc, hy, rfl⟩ := Enc.seq_eq_ok.mp h
    obtain ⟨x, r, hx, hr, rfl⟩ := Enc.seq_eq_ok.mp hy
    exact after_consI hc (hp a (by simp) d x h1 hx)
      (serSeqJ_after l (fun b hb => hp b (by simp [hb])) ds' h2 false r hr)

theorem serMapJ_after {α} {f : α → Option (SData × SData)} {p : α → Bytes → Prop} :
    ∀ (l : List α), (∀ a ∈ l, ∀ d x, f a = some d → serPairJ d = .ok x → p a x) →
    ∀ (ds : List (SData × SData)), dataAll f l = some ds → ∀ (first : Bool) (s : Bytes),
      serMapJ first ds = .ok s → After first (l.map p) s
  | [], _, ds, hd, first, s, h => by
    cases hd
    rw [serMapJ] at h
    cases h; exact after_nilI first
  | a :: l, hp, ds, hd, first, s, h => by
    simp only [dataAll, Option.bind_eq_some_iff, Option.map_eq_some_iff] at hd
    obtain ⟨d, h1, ds', h2, rfl⟩ := hd
    rw [serMapJ] at h
    obtain ⟨c, y, hc, hy, rfl⟩ := Enc.seq_eq_ok.mp h
    obtain ⟨x, r, hx, hr, rfl⟩ := Enc.seq_eq_ok.mp hy
    exact after_consI hc (hp a (by simp) d x h1 hx)
      (serMapJ_after l (fun b hb => hp b (by simp [hb])) ds' h2 false r hr)

/-- However the body is written, the variant is an object with the name and the body. -/
theorem serJ_variant {n : Name} {d' d : SData} (h : variantData n (some d') = some d) :
    ∃ nm, n = .str nm ∧ serJ d = variant nm (serJ d') := by
  cases n with
  | idx _ => cases h
  | str n => exact ⟨n, rfl, by cases d' <;> cases h <;> simp only [serJ]⟩

theorem variant_obj {nm : Str} {b : Enc} {s : Bytes} {p : Bytes → Prop} (h : variant nm b = .ok s)
    {l : Bytes → Prop}
    (hl : l []) (hb : ∀ x, b = .ok x → p x) : Obj [MemberL (NameKey (.str nm)) l p] s := by
  refine braces_obj h fun e h => ?_
  exact ⟨[], e, [], ws_nil, member_encL hl h (fun x hx => by cases hx; exact strText_str nm) hb, ws_nil,
    by simp⟩

mutual

theorem serJ_text : ∀ (t : Ty), names t = true → clearNull t = true → envOk env t →
    ∀ (v : t.Val) (d : SData) (s : Bytes), dataOf env t v = some d → serJ d = .ok s → SText env t v s
  | .prim p, _, _, _, v, d, s, hd, h => by
    rw [dataOf] at hd; cases hd; simp only [SText]; exact serPrim_text h
  | .nonZero _ _, _, _, _, v, d, s, hd, h => by
    rw [dataOf] at hd; cases hd; simp only [SText]; exact serPrim_text h
  | .unit, _, _, _, v, d, s, hd, h => by
    rw [dataOf] at hd; cases hd; rw [serJ] at h; cases h
    simp only [SText]; exact Text.null
  | .unitStruct, _, _, _, v, d, s, hd, h => by
    rw [dataOf] at hd; cases hd; rw [serJ] at h; cases h
    simp only [SText]; exact Text.null
  | .bytes, _, _, _, v, d, s, hd, h => by
    rw [dataOf] at hd; cases hd; rw [serJ] at h
    simp only [SText]; exact encBytes_arr h
  | .string, _, _, _, v, d, s, hd, h => by
    rw [dataOf] at hd; cases hd; rw [serJ] at h; cases h
    simp only [SText]; exact strText_str v
  | .byteArray _, _, _, _, v, d, s, hd, h => by rw [dataOf] at hd; cases hd
  | .packed _ _, _, _, _, v, d, s, hd, h => by rw [dataOf] at hd; cases hd
  | .option t, _, _, _, none, d, s, hd, h => by
    rw [dataOf] at hd; cases hd; rw [serJ] at h; cases h
    simp only [SText]; rfl
  | .option t, hn, hc, he, some x, d, s, hd, h => by
    rw [dataOf] at hd
    obtain ⟨d', h1, rfl⟩ := Option.map_eq_some_iff.mp hd
    rw [serJ] at h
    rw [names] at hn
    simp only [clearNull, Bool.and_eq_true, Bool.not_eq_true'] at hc
    rw [envOk] at he
    simp only [SText]
    have := serJ_text t hn hc.2 he x d' s h1 h
    exact ⟨this, sText_not_null env t hc.1 x s this⟩
  | .array _ t, hn, hc, he, v, d, s, hd, h => by
    rw [dataOf] at hd
    obtain ⟨d', h1, rfl⟩ := Option.map_eq_some_iff.mp hd
    rw [serJ] at h
    rw [names] at hn
    rw [clearNull] at hc
    rw [envOk] at he
    simp only [SText]
    refine ⟨0, brackets_arr h fun e h => ?_⟩
    rw [List.replicate_zero, List.append_nil]
    exact serSeqJ_after v.1 (fun a _ d x => serJ_text t hn hc he a d x) _ h1 true e h
  | .vec t, hn, hc, he, v, d, s, hd, h => by
    rw [dataOf] at hd
    obtain ⟨d', h1, rfl⟩ := Option.map_eq_some_iff.mp hd
    rw [serJ] at h
    rw [names] at hn
    rw [clearNull] at hc
    rw [envOk] at he
    simp only [SText]
    exact brackets_arr h fun e h =>
      serSeqJ_after v (fun a _ d x => serJ_text t hn hc he a d x) _ h1 true e h
  | .set t, hn, hc, he, v, d, s, hd, h => by
    rw [dataOf] at hd
    obtain ⟨d', h1, rfl⟩ := Option.map_eq_some_iff.mp hd
    rw [serJ] at h
    rw [names] at hn
    rw [clearNull] at hc
    rw [envOk] at he
    simp only [SText]
    exact brackets_arr h fun e h =>
      serSeqJ_after v (fun a _ d x => serJ_text t hn hc he a d x) _ h1 true e h
  | .map k t, hn, hc, he, v, d, s, hd, h => by
    rw [dataOf] at hd
    obtain ⟨d', h1, rfl⟩ := Option.map_eq_some_iff.mp hd
    rw [serJ, if_pos rfl] at h
    simp only [names, Bool.and_eq_true] at hn
    simp only [clearNull, Bool.and_eq_true] at hc
    rw [envOk] at he
    simp only [SText]
    refine braces_obj h fun e h => serMapJ_after v (fun a _ d x hd hx => ?_) _ h1 true e h
    simp only [Option.bind_eq_some_iff, Option.map_eq_some_iff] at hd
    obtain ⟨dk, hk, dv, hv, rfl⟩ := hd
    rw [serPairJ] at hx
    exact member_encL lead_nil hx (fun y => serKey_text env k a.1 dk y hk)
      (fun y => serJ_text t hn.2 hc.2 he.2 a.2 dv y hv)
  | .tuple ts, hn, hc, he, v, d, s, hd, h => by
    rw [dataOf] at hd
    obtain ⟨d', h1, rfl⟩ := Option.map_eq_some_iff.mp hd
    rw [serJ] at h
    rw [names] at hn
    rw [clearNull] at hc
    rw [envOk] at he
    simp only [SText]
    refine ⟨0, brackets_arr h fun e h => ?_⟩
    rw [List.replicate_zero, List.append_nil]
    exact serTysJ_text ts hn hc he v d' h1 true e h
  | .result _ t u, hn, hc, he, .inl x, d, s, hd, h => by
    rw [dataOf] at hd
    obtain ⟨d', h1, h2⟩ := Option.bind_eq_some_iff.mp hd
    cases h2
    rw [serJ] at h
    simp only [names, Bool.and_eq_true] at hn
    simp only [clearNull, Bool.and_eq_true] at hc
    rw [envOk] at he
    simp only [SText]
    exact variant_obj h lead_nil (fun y => serJ_text t hn.1 hc.1 he.1 x d' y h1)
  | .result _ t u, hn, hc, he, .inr x, d, s, hd, h => by
    rw [dataOf] at hd
    obtain ⟨d', h1, h2⟩ := Option.bind_eq_some_iff.mp hd
    cases h2
    rw [serJ] at h
    simp only [names, Bool.and_eq_true] at hn
    simp only [clearNull, Bool.and_eq_true] at hc
    rw [envOk] at he
    simp only [SText]
    exact variant_obj h lead_nil (fun y => serJ_text u hn.2 hc.2 he.2 x d' y h1)
  | .boxed t, hn, hc, he, v, d, s, hd, h => by
    rw [dataOf] at hd
    rw [names] at hn
    rw [clearNull] at hc
    rw [envOk] at he
    simp only [SText]
    exact serJ_text t hn hc he v d s hd h
  | .wrapping t, hn, hc, he, v, d, s, hd, h => by
    rw [dataOf] at hd
    rw [names] at hn
    rw [clearNull] at hc
    rw [envOk] at he
    simp only [SText]
    exact serJ_text t hn hc he v d s hd h
  | .transparent t, hn, hc, he, v, d, s, hd, h => by
    rw [dataOf] at hd
    obtain ⟨d', h1, rfl⟩ := Option.map_eq_some_iff.mp hd
    rw [serJ] at h
    rw [names] at hn
    rw [clearNull] at hc
    rw [envOk] at he
    simp only [SText]
    exact serJ_text t hn hc he v d' s h1 h
  | .strct nt fs, hn, hc, he, v, d, s, hd, h => by
    rw [dataOf] at hd
    obtain ⟨d', h1, rfl⟩ := Option.map_eq_some_iff.mp hd
    rw [serJ] at h
    simp only [names, Bool.and_eq_true] at hn
    rw [clearNull] at hc
    rw [envOk] at he
    simp only [SText]
    have hl : (List.map Sum.inl (fs.entries env v)).filterMap
        (Sum.getLeft? (α := fs.Known) (β := Name)) = fs.entries env v := by
      rw [List.filterMap_map]
      exact List.filterMap_some
    refine ⟨(fs.entries env v).map .inl, ?_, ?_, ?_, ?_⟩
    · intro n hn
      obtain ⟨_, _, h⟩ := List.mem_map.1 hn
      cases h
    · rw [hl]
      exact (entries_keys env fs v).nodup (namesOk_iff hn.1).1
    · rw [hl]
      exact (finish_iff env fs _ v).mp (finish_perm env fs he v _ (List.Perm.refl _))
    · rw [List.map_map]
      exact braces_obj h fun e h => serFieldsJ_text fs hn.2 hc he v d' h1 true e h
  | .unitEnum _ ns, _, _, _, v, d, s, hd, h => by
    rw [dataOf] at hd
    simp only [SText]
    cases hn : ns[v] with
    | idx _ => rw [hn] at hd; cases hd
    | str n =>
      rw [hn] at hd; cases hd
      rw [serJ] at h
      exact variant_obj h ws_nil (fun x hx => by cases hx; exact Text.null)
  | .enm _ vs, hn, hc, he, v, d, s, hd, h => by
    rw [dataOf] at hd
    simp only [names, Bool.and_eq_true] at hn
    rw [clearNull] at hc
    rw [envOk] at he
    simp only [SText]
    exact serVariantsJ_text vs hn.2 hc he v d s hd h

theorem serTysJ_text : ∀ (ts : Tys), namesTys ts = true → clearNullTys ts = true → envOkTys env ts →
    ∀ (v : ts.Val) (ds : List SData), dataTys env ts v = some ds → ∀ (first : Bool) (s : Bytes),
      serSeqJ first ds = .ok s → After first (sTys env ts v) s
  | .nil, _, _, _, v, ds, hd, first, s, h => by
    rw [dataTys] at hd; cases hd; rw [serSeqJ] at h; cases h
    simp only [sTys]; exact after_nilI first
  | .cons t ts, hn, hc, he, v, ds, hd, first, s, h => by
    simp only [dataTys, Option.bind_eq_some_iff, Option.map_eq_some_iff] at hd
    obtain ⟨d, h1, ds', h2, rfl⟩ := hd
    rw [serSeqJ] at h
    simp only [namesTys, Bool.and_eq_true] at hn
    simp only [clearNullTys, Bool.and_eq_true] at hc
    rw [envOkTys] at he
    obtain ⟨c, y, hc', hy, rfl⟩ := Enc.seq_eq_ok.mp h
    obtain ⟨x, r, hx, hr, rfl⟩ := Enc.seq_eq_ok.mp hy
    simp only [sTys]
    exact after_consI hc' (serJ_text t hn.1 hc.1 he.1 v.1 d x h1 hx)
      (serTysJ_text ts hn.2 hc.2 he.2 v.2 ds' h2 false r hr)

theorem serFieldsJ_text : ∀ (fs : Fields), namesFields fs = true → clearNullFields fs = true →
    envOkFields env fs → ∀ (v : fs.Val) (ds : List (Str × SData)), dataFields env fs v = some ds →
    ∀ (first : Bool) (s : Bytes), serFieldsJ first ds = .ok s →
      After first ((fs.entries env v).map (reprEntry fs (sKnown env fs) ∘ Sum.inl)) s
  | .nil, _, _, _, v, ds, hd, first, s, h => by
    rw [dataFields] at hd; cases hd; rw [serFieldsJ] at h; cases h
    exact after_nilI first
  | .cons n df sk t fs, hn, hc, he, v, ds, hd, first, s, h => by
    simp only [namesFields, Bool.and_eq_true] at hn
    simp only [clearNullFields, Bool.and_eq_true] at hc
    rw [envOkFields] at he
    have hm := entries_members env (fun fs => sKnown env fs) (n := n) (d := df) v
      (fun k => by funext s; simp only [sKnown])
    have hm' : ((Fields.cons n df sk t fs).entries env v).map
      (reprEntry (.cons n df sk t fs) (sKnown env (.cons n df sk t fs)) ∘ Sum.inl) = _ := hm
    rw [hm']
    rw [dataFields] at hd
    by_cases hp : fieldPresent env sk t v.1 = true
    · rw [if_pos hp] at hd ⊢
      cases n with
      | idx _ => cases hd
      | str n =>
        simp only [nameData, Option.bind_some, Option.bind_eq_some_iff, Option.map_eq_some_iff] at hd
        obtain ⟨d, h1, ds', h2, rfl⟩ := hd
        rw [serFieldsJ] at h
        obtain ⟨c, y, hc', hy, rfl⟩ := Enc.seq_eq_ok.mp h
        obtain ⟨x, r, hx, hr, rfl⟩ := Enc.seq_eq_ok.mp hy
        rw [serFieldJ] at hx
        refine after_consI hc' ?_ (serFieldsJ_text fs hn.2 hc.2 he.2.2 v.2 ds' h2 false r hr)
        refine member_encL lead_nil hx (fun x hx => by cases hx; exact strText_str n) (fun y hy => ?_)
        simp only [sKnown]
        exact serJ_text t hn.1 hc.1 he.2.1 v.1 d y h1 hy
    · rw [if_neg hp] at hd ⊢
      exact serFieldsJ_text fs hn.2 hc.2 he.2.2 v.2 ds hd first s h

theorem serVariantsJ_text : ∀ (vs : Variants), namesVariants vs = true → clearNullVariants vs = true →
    envOkVariants env vs → ∀ (v : vs.Val) (d : SData) (s : Bytes), dataVariants env vs v = some d →
    serJ d = .ok s → Obj [sVariant env vs v] s
  | .nil, _, _, _, v, _, _, _, _ => nomatch v
  | .cons n t vs, hn, hc, he, .inl x, d, s, hd, h => by
    simp only [namesVariants, Bool.and_eq_true] at hn
    simp only [clearNullVariants, Bool.and_eq_true] at hc
    rw [envOkVariants] at he
    rw [dataVariants] at hd
    cases h1 : dataOf env t x with
    | none => rw [h1] at hd; cases n <;> cases hd
    | some d' =>
      rw [h1] at hd
      obtain ⟨nm, rfl, h2⟩ := serJ_variant hd
      rw [h2] at h
      have := variant_obj h (lead_nil (t := t)) (fun y => serJ_text t hn.1 hc.1 he.1 x d' y h1)
      have e : sVariant env (.cons (.str nm) t vs) (.inl x) =
          MemberL (NameKey (.str nm)) (Lead t) (SText env t x) := by funext s; simp only [sVariant]
      rw [e]; exact this
  | .cons n t vs, hn, hc, he, .inr x, d, s, hd, h => by
    simp only [namesVariants, Bool.and_eq_true] at hn
    simp only [clearNullVariants, Bool.and_eq_true] at hc
    rw [envOkVariants] at he
    rw [dataVariants] at hd
    have e : sVariant env (.cons n t vs) (.inr x) = sVariant env vs x := by
      funext s; simp only [sVariant]
    rw [e]
    exact serVariantsJ_text vs hn.2 hc.2 he.2 x d s hd h

end
end

end Musli.Serde.Json
