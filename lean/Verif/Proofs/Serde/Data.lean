import Verif.Proofs.Serde.Any
import Verif.Model.Serde.Data
/-!
# What the types of `Ty` tell the serializer
-/
set_option linter.unusedSectionVars false
namespace Musli.Serde

theorem serData_prim (F : Fmt) : ∀ (p : Prim) (v : p.Val),
    serData F (primData p v) = F.encPrim (wire p) (toWire p v)
  | .bool, _ => rfl
  | .char, _ => rfl
  | .uint _, _ => rfl
  | .sint _, _ => rfl
  | .usize, _ => rfl
  | .isize, _ => rfl
  | .f32, _ => rfl
  | .f64, _ => rfl

theorem toWire_nonZero (F : Fmt) (s : Bool) (w : IW) (v) :
    serData F (primData (nonZeroPrim s w) v) = F.encPrim (nonZeroPrim s w) v := by
  cases s <;> rfl

theorem serDatas_all (F : Fmt) {α} {f : α → Option SData} {e : α → Enc}
    (h : ∀ a d, f a = some d → serData F d = e a) : ∀ (l : List α) (ds), dataAll f l = some ds →
    serDatas F ds = Enc.all e l ∧ ds.length = l.length
  | [], ds, hd => by cases hd; exact ⟨rfl, rfl⟩
  | a :: l, ds, hd => by
    simp only [dataAll, Option.bind_eq_some_iff, Option.map_eq_some_iff] at hd
    obtain ⟨d, h1, ds', h2, rfl⟩ := hd
    obtain ⟨h3, h4⟩ := serDatas_all F h l ds' h2
    exact ⟨by rw [serDatas, h a d h1, h3]; rfl, by rw [List.length_cons, List.length_cons, h4]⟩

theorem serPairs_all (F : Fmt) {α} {f : α → Option (SData × SData)} {e : α → Enc}
    (h : ∀ a d, f a = some d → serPair F d = e a) : ∀ (l : List α) (ds), dataAll f l = some ds →
    serPairs F ds = Enc.all e l ∧ ds.length = l.length
  | [], ds, hd => by cases hd; exact ⟨rfl, rfl⟩
  | a :: l, ds, hd => by
    simp only [dataAll, Option.bind_eq_some_iff, Option.map_eq_some_iff] at hd
    obtain ⟨d, h1, ds', h2, rfl⟩ := hd
    obtain ⟨h3, h4⟩ := serPairs_all F h l ds' h2
    exact ⟨by rw [serPairs, h a d h1, h3]; rfl, by rw [List.length_cons, List.length_cons, h4]⟩

/-- However the body is written, the variant is its marker, its name and its body. -/
theorem serData_variant (F : Fmt) (n : Name) (d' d : SData) (h : variantData n (some d') = some d) :
    serData F d = (F.encVariant +> encKey F n +> serData F d') := by
  cases n with
  | idx _ => cases h
  | str n => cases d' <;> cases h <;> rfl

section
variable [Host] (o : Options) (env : Env)

mutual

theorem ser_dataOf : ∀ (t : Ty) (m : Mode) (v : t.Val) (d : SData), dataOf env t v = some d →
    ser o env t m v = serData (m.fmt o) d
  | .prim p, m, v, d, h => by cases h; rw [ser, serData_prim]
  | .nonZero s w, m, v, d, h => by cases h; rw [ser, toWire_nonZero]
  | .unit, m, v, d, h => by cases h; rfl
  | .bytes, m, v, d, h => by cases h; rfl
  | .string, m, v, d, h => by cases h; rfl
  | .byteArray _, m, v, d, h => by cases h
  | .option t, m, none, d, h => by cases h; rfl
  | .option t, m, some x, d, h => by
    rw [dataOf] at h
    obtain ⟨d', h1, rfl⟩ := Option.map_eq_some_iff.mp h
    rw [ser, serData, ser_dataOf t m x d' h1]
  | .array n t, m, v, d, h => by
    rw [dataOf] at h
    obtain ⟨d', h1, rfl⟩ := Option.map_eq_some_iff.mp h
    obtain ⟨h2, h3⟩ := serDatas_all (m.fmt o) (fun a d hd => (ser_dataOf t m a d hd).symm) _ _ h1
    rw [ser, serData, h2, h3]
  | .vec t, m, v, d, h => by
    rw [dataOf] at h
    obtain ⟨d', h1, rfl⟩ := Option.map_eq_some_iff.mp h
    obtain ⟨h2, h3⟩ := serDatas_all (m.fmt o) (fun a d hd => (ser_dataOf t m a d hd).symm) _ _ h1
    rw [ser, serData, h2, h3]; rfl
  | .set t, m, v, d, h => by
    rw [dataOf] at h
    obtain ⟨d', h1, rfl⟩ := Option.map_eq_some_iff.mp h
    obtain ⟨h2, h3⟩ := serDatas_all (m.fmt o) (fun a d hd => (ser_dataOf t m a d hd).symm) _ _ h1
    rw [ser, serData, h2, h3]; rfl
  | .map k t, m, v, d, h => by
    rw [dataOf] at h
    obtain ⟨d', h1, rfl⟩ := Option.map_eq_some_iff.mp h
    obtain ⟨h2, h3⟩ := serPairs_all (m.fmt o) (e := fun x => ser o env k m x.1 +> ser o env t m x.2)
      (fun a d hd => by
        simp only [Option.bind_eq_some_iff, Option.map_eq_some_iff] at hd
        obtain ⟨x, hx, y, hy, rfl⟩ := hd
        rw [serPair, ser_dataOf k m a.1 x hx, ser_dataOf t m a.2 y hy]) _ _ h1
    rw [ser, serData, h2, h3]; rfl
  | .tuple ts, m, v, d, h => by
    rw [dataOf] at h
    obtain ⟨d', h1, rfl⟩ := Option.map_eq_some_iff.mp h
    obtain ⟨h2, h3⟩ := serTys_dataOf ts m v d' h1
    rw [ser, serData, h2, h3]
  | .result _ t u, m, .inl x, d, h => by
    rw [dataOf] at h
    obtain ⟨d', h1, h2⟩ := Option.bind_eq_some_iff.mp h
    cases h2
    rw [ser, serData, ser_dataOf t m x d' h1]; rfl
  | .result _ t u, m, .inr x, d, h => by
    rw [dataOf] at h
    obtain ⟨d', h1, h2⟩ := Option.bind_eq_some_iff.mp h
    cases h2
    rw [ser, serData, ser_dataOf u m x d' h1]; rfl
  | .boxed t, m, v, d, h => by
    rw [dataOf] at h; rw [ser]; exact ser_dataOf t m v d h
  | .wrapping t, m, v, d, h => by
    rw [dataOf] at h; rw [ser]; exact ser_dataOf t m v d h
  | .transparent t, m, v, d, h => by
    rw [dataOf] at h
    obtain ⟨d', h1, rfl⟩ := Option.map_eq_some_iff.mp h
    rw [ser, serData, ser_dataOf t m v d' h1]
  | .unitStruct, m, v, d, h => by cases h; rfl
  | .strct _ fs, m, v, d, h => by
    rw [dataOf] at h
    obtain ⟨d', h1, rfl⟩ := Option.map_eq_some_iff.mp h
    obtain ⟨h2, h3⟩ := serFields_dataOf fs m v d' h1
    rw [ser, serData, h2, h3]
  | .packed _ _, m, v, d, h => by cases h
  | .unitEnum _ names, m, v, d, h => by
    rw [dataOf] at h
    rw [ser]
    cases hn : names[v] with
    | idx _ => rw [hn] at h; cases h
    | str n => rw [hn] at h; cases h; rfl
  | .enm _ vs, m, v, d, h => by
    rw [dataOf] at h
    rw [ser, serVariants_dataOf vs m v d h]

theorem serTys_dataOf : ∀ (ts : Tys) (m : Mode) (v : ts.Val) (ds), dataTys env ts v = some ds →
    serTys o env ts m v = serDatas (m.fmt o) ds ∧ ts.length = ds.length
  | .nil, m, v, ds, h => by cases h; exact ⟨rfl, rfl⟩
  | .cons t ts, m, v, ds, h => by
    simp only [dataTys, Option.bind_eq_some_iff, Option.map_eq_some_iff] at h
    obtain ⟨d, h1, ds', h2, rfl⟩ := h
    obtain ⟨h3, h4⟩ := serTys_dataOf ts m v.2 ds' h2
    exact ⟨by rw [serTys, serDatas, ser_dataOf t m v.1 d h1, h3],
      by rw [Tys.length, List.length_cons, h4]⟩

theorem serFields_dataOf : ∀ (fs : Fields) (m : Mode) (v : fs.Val) (ds),
    dataFields env fs v = some ds →
    serFields o env fs m v = serMembers (m.fmt o) ds ∧ fs.count env v = ds.length
  | .nil, m, v, ds, h => by cases h; exact ⟨rfl, rfl⟩
  | .cons n _ skip t fs, m, v, ds, h => by
    rw [dataFields] at h
    rw [serFields, Fields.count]
    by_cases hp : fieldPresent env skip t v.1 = true
    · rw [if_pos hp] at h ⊢
      cases n with
      | idx _ => cases h
      | str n =>
        simp only [nameData, Option.bind_some, Option.bind_eq_some_iff, Option.map_eq_some_iff] at h
        obtain ⟨d, h1, ds', h2, rfl⟩ := h
        obtain ⟨h3, h4⟩ := serFields_dataOf fs m v.2 ds' h2
        rw [if_pos hp, h4, List.length_cons, serMembers, serMember, h3, ser_dataOf t m v.1 d h1]
        exact ⟨rfl, by omega⟩
    · rw [if_neg hp] at h ⊢
      obtain ⟨h3, h4⟩ := serFields_dataOf fs m v.2 ds h
      rw [if_neg hp, h4, h3]
      refine ⟨?_, by omega⟩
      show (Except.ok [] +> serMembers (m.fmt o) ds) = _
      cases serMembers (m.fmt o) ds <;> rfl

theorem serVariants_dataOf : ∀ (vs : Variants) (m : Mode) (v : vs.Val) (d),
    dataVariants env vs v = some d →
    ((m.fmt o).encVariant +> serVariants o env vs m v) = serData (m.fmt o) d
  | .nil, m, v, d, h => nomatch v
  | .cons n t vs, m, .inl x, d, h => by
    rw [dataVariants] at h
    rw [serVariants]
    cases hd : dataOf env t x with
    | none => rw [hd] at h; cases n <;> cases h
    | some d' =>
      rw [hd] at h
      rw [serData_variant _ n d' d h, ser_dataOf t m x d' hd]
  | .cons n t vs, m, .inr x, d, h => by
    rw [dataVariants] at h
    rw [serVariants]
    exact serVariants_dataOf vs m x d h

end
end

end Musli.Serde
