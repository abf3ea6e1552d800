import Verif.Proofs.Serde.JsonEncode
/-!
# The JSON of the serde bridge is Müsli's own
-/
set_option linter.unusedSectionVars false
namespace Musli.Serde.Json
open Musli.Json

theorem enc_assoc (a b c : Enc) : ((a +> b) +> c) = (a +> (b +> c)) := by
  cases a with
  | error e => rfl
  | ok a =>
    cases b with
    | error e => rfl
    | ok b =>
      cases c with
      | error e => rfl
      | ok c => exact congrArg Except.ok (List.append_assoc a b c)

section
variable (env : Env)

theorem serPrim_same : ∀ (p : Prim) (v : p.Val), serJ (primData p v) = encPrim p v
  | .bool, _ => by simp only [primData, serJ]
  | .char, _ => by simp only [primData, serJ]
  | .uint _, _ => by simp only [primData, serJ]
  | .sint _, _ => by simp only [primData, serJ]
  | .usize, _ => by simp only [primData, serJ]; rfl
  | .isize, _ => by simp only [primData, serJ]; rfl
  | .f32, _ => by simp only [primData, serJ]
  | .f64, _ => by simp only [primData, serJ]

theorem serPrimKey_same : ∀ (p : Prim) (v : p.Val), serKey (primData p v) = encPrimKey p v
  | .bool, _ => rfl
  | .char, _ => rfl
  | .uint _, _ => rfl
  | .sint _, _ => rfl
  | .usize, _ => rfl
  | .isize, _ => rfl
  | .f32, _ => rfl
  | .f64, _ => rfl

theorem serKey_same : ∀ (t : Ty), compat t = true → ∀ (v : t.Val) (d : SData), dataOf env t v = some d →
    serKey d = Musli.Json.encKey t v
  | .prim p, _, v, d, hd => by rw [dataOf] at hd; cases hd; exact serPrimKey_same p v
  | .nonZero _ _, _, v, d, hd => by rw [dataOf] at hd; cases hd; exact serPrimKey_same _ _
  | .string, _, v, d, hd => by rw [dataOf] at hd; cases hd; rfl
  | .boxed t, hc, v, d, hd => by
    rw [dataOf] at hd; rw [compat] at hc; rw [Musli.Json.encKey]; exact serKey_same t hc v d hd
  | .wrapping t, hc, v, d, hd => by
    rw [dataOf] at hd; rw [compat] at hc; rw [Musli.Json.encKey]; exact serKey_same t hc v d hd
  | .transparent t, hc, v, d, hd => by
    rw [dataOf] at hd
    rw [compat] at hc
    obtain ⟨d', h1, rfl⟩ := Option.map_eq_some_iff.mp hd
    rw [serKey, Musli.Json.encKey]
    exact serKey_same t hc v d' h1
  | .unit, _, _, d, hd => by rw [dataOf] at hd; cases hd; rfl
  | .bytes, _, _, d, hd => by rw [dataOf] at hd; cases hd; rfl
  | .byteArray _, _, _, d, hd => by rw [dataOf] at hd; cases hd
  | .option _, _, none, d, hd => by rw [dataOf] at hd; cases hd; rfl
  | .option _, _, some x, d, hd => by
    rw [dataOf] at hd
    obtain ⟨d', h1, rfl⟩ := Option.map_eq_some_iff.mp hd
    rfl
  | .array _ _, _, v, d, hd => by
    rw [dataOf] at hd
    obtain ⟨d', h1, rfl⟩ := Option.map_eq_some_iff.mp hd
    rfl
  | .vec _, _, v, d, hd => by
    rw [dataOf] at hd
    obtain ⟨d', h1, rfl⟩ := Option.map_eq_some_iff.mp hd
    rfl
  | .set _, _, v, d, hd => by
    rw [dataOf] at hd
    obtain ⟨d', h1, rfl⟩ := Option.map_eq_some_iff.mp hd
    rfl
  | .map _ _, _, v, d, hd => by
    rw [dataOf] at hd
    obtain ⟨d', h1, rfl⟩ := Option.map_eq_some_iff.mp hd
    rfl
  | .tuple _, _, v, d, hd => by
    rw [dataOf] at hd
    obtain ⟨d', h1, rfl⟩ := Option.map_eq_some_iff.mp hd
    rfl
  | .result _ _ _, _, .inl x, d, hd => by
    rw [dataOf] at hd
    obtain ⟨d', h1, h2⟩ := Option.bind_eq_some_iff.mp hd
    cases h2
    rfl
  | .result _ _ _, _, .inr x, d, hd => by
    rw [dataOf] at hd
    obtain ⟨d', h1, h2⟩ := Option.bind_eq_some_iff.mp hd
    cases h2
    rfl
  | .unitStruct, hc, _, d, hd => by simp [compat] at hc
  | .strct _ _, _, v, d, hd => by
    rw [dataOf] at hd
    obtain ⟨d', h1, rfl⟩ := Option.map_eq_some_iff.mp hd
    rfl
  | .packed _ _, _, _, d, hd => by rw [dataOf] at hd; cases hd
  | .unitEnum _ names, hc, v, d, hd => by simp [compat] at hc
  | .enm _ vs, _, v, d, hd => by
    rw [dataOf] at hd
    rw [dataVariants_key env vs v d hd]
    rfl

theorem serSeqJ_same {α} {f : α → Option SData} {e : α → Enc}
    (h : ∀ a d, f a = some d → serJ d = e a) : ∀ (l : List α) (ds), dataAll f l = some ds →
    ∀ first, serSeqJ first ds = sepAll e first l
  | [], ds, hd, first => by cases hd; rw [serSeqJ]; rfl
  | a :: l, ds, hd, first => by
    simp only [dataAll, Option.bind_eq_some_iff, Option.map_eq_some_iff] at hd
    obtain ⟨d, h1, ds', h2, rfl⟩ := hd
    rw [serSeqJ, h a d h1, serSeqJ_same h l ds' h2 false]
    rfl

theorem serMapJ_same {α} {f : α → Option (SData × SData)} {e : α → Enc}
    (h : ∀ a d, f a = some d → serPairJ d = e a) : ∀ (l : List α) (ds), dataAll f l = some ds →
    ∀ first, serMapJ first ds = sepAll e first l
  | [], ds, hd, first => by cases hd; rw [serMapJ]; rfl
  | a :: l, ds, hd, first => by
    simp only [dataAll, Option.bind_eq_some_iff, Option.map_eq_some_iff] at hd
    obtain ⟨d, h1, ds', h2, rfl⟩ := hd
    rw [serMapJ, h a d h1, serMapJ_same h l ds' h2 false]
    rfl

mutual

theorem serJ_same : ∀ (t : Ty), compat t = true → ∀ (v : t.Val) (d : SData), dataOf env t v = some d →
    serJ d = encJ env t v
  | .prim p, _, v, d, hd => by rw [dataOf] at hd; cases hd; simp only [encJ]; exact serPrim_same p v
  | .nonZero _ _, _, v, d, hd => by
    rw [dataOf] at hd; cases hd; simp only [encJ]; exact serPrim_same _ _
  | .unit, _, _, d, hd => by rw [dataOf] at hd; cases hd; simp only [encJ, serJ]
  | .bytes, _, _, d, hd => by rw [dataOf] at hd; cases hd; simp only [encJ, serJ]
  | .string, _, v, d, hd => by rw [dataOf] at hd; cases hd; simp only [encJ, serJ]
  | .byteArray _, _, _, d, hd => by rw [dataOf] at hd; cases hd
  | .packed _ _, _, _, d, hd => by rw [dataOf] at hd; cases hd
  | .unitStruct, hc, _, d, hd => by simp [compat] at hc
  | .unitEnum _ names, hc, v, d, hd => by simp [compat] at hc
  | .option _, _, none, d, hd => by rw [dataOf] at hd; cases hd; simp only [encJ, serJ]
  | .option t, hc, some x, d, hd => by
    rw [dataOf] at hd
    rw [compat] at hc
    obtain ⟨d', h1, rfl⟩ := Option.map_eq_some_iff.mp hd
    simp only [encJ, serJ]
    exact serJ_same t hc x d' h1
  | .array _ t, hc, v, d, hd => by
    rw [dataOf] at hd
    rw [compat] at hc
    obtain ⟨d', h1, rfl⟩ := Option.map_eq_some_iff.mp hd
    simp only [encJ, serJ]
    rw [serSeqJ_same (fun a d => serJ_same t hc a d) _ _ h1]
  | .vec t, hc, v, d, hd => by
    rw [dataOf] at hd
    rw [compat] at hc
    obtain ⟨d', h1, rfl⟩ := Option.map_eq_some_iff.mp hd
    simp only [encJ, serJ]
    rw [serSeqJ_same (fun a d => serJ_same t hc a d) _ _ h1]
  | .set t, hc, v, d, hd => by
    rw [dataOf] at hd
    rw [compat] at hc
    obtain ⟨d', h1, rfl⟩ := Option.map_eq_some_iff.mp hd
    simp only [encJ, serJ]
    rw [serSeqJ_same (fun a d => serJ_same t hc a d) _ _ h1]
  | .map k t, hc, v, d, hd => by
    rw [dataOf] at hd
    simp only [compat, Bool.and_eq_true] at hc
    obtain ⟨d', h1, rfl⟩ := Option.map_eq_some_iff.mp hd
    simp only [encJ, serJ, if_true]
    rw [serMapJ_same (e := fun x => Musli.Json.encKey k x.1 +> .ok [0x3A#8] +> encJ env t x.2) (fun a d hd => by
      simp only [Option.bind_eq_some_iff, Option.map_eq_some_iff] at hd
      obtain ⟨x, hx, y, hy, rfl⟩ := hd
      rw [serPairJ, serKey_same env k hc.1 a.1 x hx, serJ_same t hc.2 a.2 y hy]) _ _ h1]
  | .tuple ts, hc, v, d, hd => by
    rw [dataOf] at hd
    rw [compat] at hc
    obtain ⟨d', h1, rfl⟩ := Option.map_eq_some_iff.mp hd
    simp only [encJ, serJ]
    rw [serTysJ_same ts hc v d' h1]
  | .result nt t u, hc, .inl x, d, hd => by
    rw [dataOf] at hd
    simp only [compat, Bool.and_eq_true, beq_iff_eq] at hc
    obtain ⟨d', h1, h2⟩ := Option.bind_eq_some_iff.mp hd
    cases h2
    obtain ⟨⟨rfl, hc1⟩, hc2⟩ := hc
    simp only [encJ, serJ]
    rw [serJ_same t hc1 x d' h1]
    rfl
  | .result nt t u, hc, .inr x, d, hd => by
    rw [dataOf] at hd
    simp only [compat, Bool.and_eq_true, beq_iff_eq] at hc
    obtain ⟨d', h1, h2⟩ := Option.bind_eq_some_iff.mp hd
    cases h2
    obtain ⟨⟨rfl, hc1⟩, hc2⟩ := hc
    simp only [encJ, serJ]
    rw [serJ_same u hc2 x d' h1]
    rfl
  | .boxed t, hc, v, d, hd => by
    rw [dataOf] at hd; rw [compat] at hc; simp only [encJ]; exact serJ_same t hc v d hd
  | .wrapping t, hc, v, d, hd => by
    rw [dataOf] at hd; rw [compat] at hc; simp only [encJ]; exact serJ_same t hc v d hd
  | .transparent t, hc, v, d, hd => by
    rw [dataOf] at hd
    rw [compat] at hc
    obtain ⟨d', h1, rfl⟩ := Option.map_eq_some_iff.mp hd
    simp only [encJ, serJ]
    exact serJ_same t hc v d' h1
  | .strct _ fs, hc, v, d, hd => by
    rw [dataOf] at hd
    simp only [compat, Bool.and_eq_true] at hc
    obtain ⟨d', h1, rfl⟩ := Option.map_eq_some_iff.mp hd
    simp only [encJ, serJ]
    rw [serFieldsJ_same fs hc.2 v d' h1]
  | .enm _ vs, hc, v, d, hd => by
    rw [dataOf] at hd
    simp only [compat, Bool.and_eq_true] at hc
    simp only [encJ]
    exact serVariantsJ_same vs hc.2 v d hd

theorem serTysJ_same : ∀ (ts : Tys), compatTys ts = true → ∀ (v : ts.Val) (ds), dataTys env ts v = some ds →
    ∀ first, serSeqJ first ds = encTysJ env ts first v
  | .nil, _, v, ds, h, first => by
    rw [dataTys] at h; cases h; simp only [encTysJ, serSeqJ]
  | .cons t ts, hc, v, ds, h, first => by
    simp only [dataTys, Option.bind_eq_some_iff, Option.map_eq_some_iff] at h
    simp only [compatTys, Bool.and_eq_true] at hc
    obtain ⟨d, h1, ds', h2, rfl⟩ := h
    simp only [encTysJ, serSeqJ]
    rw [serJ_same t hc.1 v.1 d h1, serTysJ_same ts hc.2 v.2 ds' h2]
    rfl

theorem serFieldsJ_same : ∀ (fs : Fields), compatFields fs = true → ∀ (v : fs.Val) (ds),
    dataFields env fs v = some ds → ∀ first, serFieldsJ first ds = encFieldsJ env fs first v
  | .nil, _, v, ds, h, first => by
    rw [dataFields] at h; cases h; simp only [encFieldsJ, serFieldsJ]
  | .cons n _ skip t fs, hc, v, ds, h, first => by
    simp only [compatFields, Bool.and_eq_true] at hc
    rw [dataFields] at h
    simp only [encFieldsJ]
    by_cases hp : fieldPresent env skip t v.1 = true
    · rw [if_pos hp] at h ⊢
      cases n with
      | idx _ => cases h
      | str n =>
        simp only [nameData, Option.bind_some, Option.bind_eq_some_iff, Option.map_eq_some_iff] at h
        obtain ⟨d, h1, ds', h2, rfl⟩ := h
        rw [serFieldsJ, serFieldJ, serJ_same t hc.1 v.1 d h1, serFieldsJ_same fs hc.2 v.2 ds' h2,
          enc_assoc, enc_assoc]
        rfl
    · rw [if_neg hp] at h ⊢
      exact serFieldsJ_same fs hc.2 v.2 ds h first

theorem serVariantsJ_same : ∀ (vs : Variants), compatVariants vs = true → ∀ (v : vs.Val) (d),
    dataVariants env vs v = some d → serJ d = braces (encVariantsJ env vs v)
  | .nil, _, v, d, h => nomatch v
  | .cons n t vs, hc, .inl x, d, h => by
    simp only [compatVariants, Bool.and_eq_true] at hc
    rw [dataVariants] at h
    simp only [encVariantsJ]
    cases hd : dataOf env t x with
    | none => rw [hd] at h; cases n <;> cases h
    | some d' =>
      rw [hd] at h
      obtain ⟨nm, rfl, h2⟩ := serJ_variant h
      rw [h2, serJ_same t hc.1.1 x d' hd]
      rfl
  | .cons n t vs, hc, .inr x, d, h => by
    simp only [compatVariants, Bool.and_eq_true] at hc
    rw [dataVariants] at h
    simp only [encVariantsJ]
    exact serVariantsJ_same vs hc.2 x d h

end
end

end Musli.Serde.Json
