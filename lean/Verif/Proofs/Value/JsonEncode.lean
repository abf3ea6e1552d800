import Verif.Proofs.Value.JsonBuffer
import Verif.Proofs.Json.Encode
/-!
# What the JSON encoder writes is a text for a document
-/
set_option linter.unusedSectionVars false
namespace Musli.Json
open Musli Spec

theorem allRel_map {α β γ : Type} {r : α → β → Prop} (f : γ → α) : ∀ (l : List γ) (m : List β),
    AllRel r (l.map f) m ↔ AllRel (fun a b => r (f a) b) l m
  | [], [] => by simp [AllRel]
  | [], _ :: _ => by simp [AllRel]
  | _ :: _, [] => by simp [AllRel]
  | a :: l, b :: m => by simp only [List.map_cons, AllRel, allRel_map f l m]

/-! ## Integers -/

theorem primInt_range {p : Prim} {v : p.Val} {i : Int} (h : primInt p v = some i) :
    -2 ^ 127 ≤ i ∧ i < 2 ^ 128 := by
  cases p with
  | uint w =>
    have h : ((BitVec.toNat (w := w.bits) v : Nat) : Int) = i := by simpa [primInt] using h
    have h1 := BitVec.isLt (w := w.bits) v
    have h2 : 2 ^ w.bits ≤ 2 ^ 128 := by cases w <;> decide
    omega
  | usize =>
    have h : ((BitVec.toNat (w := 64) v : Nat) : Int) = i := by simpa [primInt] using h
    have h1 := BitVec.isLt (w := 64) v
    omega
  | sint w =>
    have h : BitVec.toInt (n := w.bits) v = i := by simpa [primInt] using h
    have h1 := BitVec.le_toInt (w := w.bits) v
    have h2 := BitVec.toInt_lt (w := w.bits) (x := v)
    have h3 : (2 : Int) ^ (w.bits - 1) ≤ 2 ^ 127 := by cases w <;> decide
    omega
  | isize =>
    have h : BitVec.toInt (n := 64) v = i := by simpa [primInt] using h
    have h1 := BitVec.le_toInt (w := 64) v
    have h2 := BitVec.toInt_lt (w := 64) (x := v)
    omega
  | bool => cases h
  | char => cases h
  | f32 => cases h
  | f64 => cases h

theorem fmtInt_int {p : Prim} {v : p.Val} {s : Bytes} (h : fmtInt p v = .ok s) :
    ∃ i, primInt p v = some i ∧ s = sign (decide (i < 0)) ++ decimal i.natAbs := by
  have hs : ∀ {w : Nat} (v : BitVec w), fmtSigned v = sign (decide (v.toInt < 0)) ++ decimal v.toInt.natAbs := by
    intro w v
    unfold fmtSigned
    by_cases h : v.toInt < 0
    · simp [h, sign]
    · simp [h, sign]
  have hu : ∀ {w : Nat} (v : BitVec w), fmtUnsigned v =
      sign (decide ((v.toNat : Int) < 0)) ++ decimal (v.toNat : Int).natAbs := by
    intro w v
    have : ¬ (v.toNat : Int) < 0 := by omega
    unfold fmtUnsigned
    simp [this, sign]
  cases p with
  | uint w => cases h; exact ⟨_, rfl, hu (w := w.bits) v⟩
  | sint w => cases h; exact ⟨_, rfl, hs (w := w.bits) v⟩
  | usize => cases h; exact ⟨_, rfl, hu (w := 64) v⟩
  | isize => cases h; exact ⟨_, rfl, hs (w := 64) v⟩
  | bool => cases h
  | char => cases h
  | f32 => cases h
  | f64 => cases h

theorem fmtInt_doc {p : Prim} {v : p.Val} {s : Bytes} (h : fmtInt p v = .ok s) :
    ∃ d, PrimDoc p v d ∧ d.text s ∧ d.small := by
  obtain ⟨i, hi, rfl⟩ := fmtInt_int h
  have hr := primInt_range hi
  refine ⟨.num (decide (i < 0)) i.natAbs, ⟨i, hi, _, _, rfl, ?_⟩, ?_, ?_⟩
  · unfold signedValue
    by_cases h : i < 0
    · simp only [h, decide_true, if_true]; omega
    · simp only [h, decide_false, Bool.false_eq_true, if_false]; omega
  · simp only [Doc.text]
    exact ⟨_, decimal_numeral _, value_decimal _, rfl⟩
  · simp only [Doc.small]
    by_cases h : i < 0
    · simp only [h, decide_true, if_true]; omega
    · simp only [h, decide_false, Bool.false_eq_true, if_false]; omega

theorem fmtInt_key {p : Prim} {v : p.Val} {b : Bytes} (h : fmtInt p v = .ok b) :
    ∃ k, PrimKeyDoc p v k ∧ StringText k (0x22#8 :: b ++ [0x22#8]) := by
  obtain ⟨cs, h1, h2⟩ := ascii_encode b (fmtInt_ascii h)
  obtain ⟨i, hi, hb⟩ := fmtInt_int h
  refine ⟨⟨b, (Utf8.valid_iff b).2 ⟨cs, h1⟩⟩, ⟨i, hi, _, decimal_numeral _, value_decimal _, hb⟩,
    cs, h1, b, h2, rfl⟩

theorem encPrimKey_doc {p : Prim} {v : p.Val} {s : Bytes} (h : encPrimKey p v = .ok s) :
    ∃ k, PrimKeyDoc p v k ∧ StringText k s := by
  unfold encPrimKey at h
  cases hb : fmtInt p v with
  | error e => rw [hb] at h; cases h
  | ok b =>
    rw [hb] at h
    cases h
    exact fmtInt_key hb

theorem encNameK_doc {n : Name} {s : Bytes} (h : encNameK n = .ok s) :
    ∃ k, NameKeyDoc n k ∧ StringText k s := by
  cases n with
  | idx n =>
    obtain ⟨k, ⟨i, hi, hk⟩, hs⟩ := encPrimKey_doc (p := .usize) (v := n) (s := s) h
    cases hi
    exact ⟨k, hk, hs⟩
  | str n => cases h; exact ⟨n, rfl, strText_str n⟩

theorem encNameV_doc {n : Name} {s : Bytes} (h : encNameV n = .ok s) :
    ∃ d, NameDoc n d ∧ d.text s ∧ d.small := by
  cases n with
  | idx n =>
    obtain ⟨d, ⟨i, hi, hd⟩, hs⟩ := fmtInt_doc (p := .usize) (v := n) (s := s) h
    cases hi
    exact ⟨d, hd, hs⟩
  | str n =>
    cases h
    exact ⟨.str n, rfl, by simp only [Doc.text]; exact strText_str n, by simp only [Doc.small]⟩

theorem encKey_doc : ∀ (t : Ty) (v : t.Val) (s : Bytes), encKey t v = .ok s →
    ∃ k, KeyDoc t v k ∧ StringText k s
  | .prim p, v, s, h => encPrimKey_doc h
  | .nonZero _ _, v, s, h => encPrimKey_doc h
  | .string, v, s, h => by cases h; exact ⟨v, rfl, strText_str v⟩
  | .boxed t, v, s, h => encKey_doc t v s h
  | .wrapping t, v, s, h => encKey_doc t v s h
  | .transparent t, v, s, h => encKey_doc t v s h
  | .unitEnum _ names, v, s, h => encNameK_doc h
  | .unit, _, _, h => by cases h
  | .bytes, _, _, h => by cases h
  | .byteArray _, _, _, h => by cases h
  | .option _, _, _, h => by cases h
  | .array _ _, _, _, h => by cases h
  | .vec _, _, _, h => by cases h
  | .set _, _, _, h => by cases h
  | .map _ _, _, _, h => by cases h
  | .tuple _, _, _, h => by cases h
  | .result _ _ _, _, _, h => by cases h
  | .unitStruct, _, _, h => by cases h
  | .strct _ _, _, _, h => by cases h
  | .packed _ _, _, _, h => by cases h
  | .enm _ _, _, _, h => by cases h

/-! ## Sequences and objects -/

theorem sepAll_docs {α : Type} {f : α → Enc} {r : α → Doc → Prop} :
    ∀ (l : List α), (∀ a ∈ l, ∀ x, f a = .ok x → ∃ d, r a d ∧ d.text x ∧ d.small) →
    ∀ (first : Bool) (s : Bytes), sepAll f first l = .ok s →
      ∃ ds, AllRel r l ds ∧ After first (texts ds) s ∧ smalls ds
  | [], _, first, s, h => by
    cases h
    exact ⟨[], trivial, by simp only [texts]; exact after_nilI first, by simp only [smalls]⟩
  | a :: l, hp, first, s, h => by
    obtain ⟨c, y, hc, hy, rfl⟩ := Enc.seq_eq_ok.mp h
    obtain ⟨x, q, hx, hq, rfl⟩ := Enc.seq_eq_ok.mp hy
    obtain ⟨d, h1, h2, h3⟩ := hp a (by simp) x hx
    obtain ⟨ds, h4, h5, h6⟩ := sepAll_docs l (fun b hb => hp b (by simp [hb])) false q hq
    refine ⟨d :: ds, ⟨h1, h4⟩, ?_, ?_⟩
    · simp only [texts]; exact after_consI hc h2 h5
    · simp only [smalls]; exact ⟨h3, h6⟩

theorem sepAll_members {α : Type} {f : α → Enc} {r : α → Str × Doc → Prop} :
    ∀ (l : List α), (∀ a ∈ l, ∀ x, f a = .ok x → ∃ m, r a m ∧ memberText m x ∧ smallMember m) →
    ∀ (first : Bool) (s : Bytes), sepAll f first l = .ok s →
      ∃ ds, AllRel r l ds ∧ After first (memberTexts ds) s ∧ smallMembers ds
  | [], _, first, s, h => by
    cases h
    exact ⟨[], trivial, by simp only [memberTexts]; exact after_nilI first, by simp only [smallMembers]⟩
  | a :: l, hp, first, s, h => by
    obtain ⟨c, y, hc, hy, rfl⟩ := Enc.seq_eq_ok.mp h
    obtain ⟨x, q, hx, hq, rfl⟩ := Enc.seq_eq_ok.mp hy
    obtain ⟨d, h1, h2, h3⟩ := hp a (by simp) x hx
    obtain ⟨ds, h4, h5, h6⟩ := sepAll_members l (fun b hb => hp b (by simp [hb])) false q hq
    refine ⟨d :: ds, ⟨h1, h4⟩, ?_, ?_⟩
    · simp only [memberTexts]; exact after_consI hc h2 h5
    · simp only [smallMembers]; exact ⟨h3, h6⟩

theorem brackets_doc {R : List Doc → Prop} {b : Enc} {s : Bytes} (h : brackets b = .ok s)
    (hb : ∀ e, b = .ok e → ∃ ds, R ds ∧ After true (texts ds) e ∧ smalls ds) :
    ∃ ds, R ds ∧ (Doc.arr ds).text s ∧ (Doc.arr ds).small := by
  obtain ⟨c, y, hc, hy, rfl⟩ := Enc.seq_eq_ok.mp h
  obtain ⟨e, d, he, hd, rfl⟩ := Enc.seq_eq_ok.mp hy
  cases hc; cases hd
  obtain ⟨ds, h1, h2, h3⟩ := hb e he
  refine ⟨ds, h1, ?_, ?_⟩
  · simp only [Doc.text]; exact ⟨e, h2, rfl⟩
  · simp only [Doc.small]; exact h3

theorem braces_doc {R : List (Str × Doc) → Prop} {b : Enc} {s : Bytes} (h : braces b = .ok s)
    (hb : ∀ e, b = .ok e → ∃ ds, R ds ∧ After true (memberTexts ds) e ∧ smallMembers ds) :
    ∃ ds, R ds ∧ (Doc.obj ds).text s ∧ (Doc.obj ds).small := by
  obtain ⟨c, y, hc, hy, rfl⟩ := Enc.seq_eq_ok.mp h
  obtain ⟨e, d, he, hd, rfl⟩ := Enc.seq_eq_ok.mp hy
  cases hc; cases hd
  obtain ⟨ds, h1, h2, h3⟩ := hb e he
  refine ⟨ds, h1, ?_, ?_⟩
  · simp only [Doc.text]; exact ⟨e, h2, rfl⟩
  · simp only [Doc.small]; exact h3

theorem member_doc {rk : Str → Prop} {rd : Doc → Prop} {a b : Enc} {s : Bytes}
    (h : (a +> .ok [0x3A#8] +> b) = .ok s) (hk : ∀ x, a = .ok x → ∃ k, rk k ∧ StringText k x)
    (hv : ∀ x, b = .ok x → ∃ d, rd d ∧ d.text x ∧ d.small) :
    ∃ m : Str × Doc, (rk m.1 ∧ rd m.2) ∧ memberText m s ∧ smallMember m := by
  obtain ⟨x, y, hx, hy, rfl⟩ := Enc.seq_eq_ok.mp h
  obtain ⟨c, z, hc, hz, rfl⟩ := Enc.seq_eq_ok.mp hy
  cases hc
  obtain ⟨k, h1, h2⟩ := hk x hx
  obtain ⟨d, h3, h4, h5⟩ := hv z hz
  refine ⟨(k, d), ⟨h1, h3⟩, ?_, ?_⟩
  · simp only [memberText]; exact ⟨x, [], [], z, h2, ws_nil, ws_nil, h4, rfl⟩
  · simp only [smallMember]; exact h5

/-! ## Types -/

section
variable (env : Env)

mutual

theorem encJ_doc : ∀ (t : Ty), t.bufferable = true → t.jsonOk = true → t.envOk env →
    ∀ (v : t.Val) (s : Bytes), encJ env t v = .ok s → ∃ d, DocOf env t v d ∧ d.text s ∧ d.small
  | .prim p, hb, _, _, v, s, h => by
    simp only [encJ] at h
    cases p with
    | bool =>
      cases h
      refine ⟨.bool v, by simp only [DocOf], by simp only [Doc.text]; rfl, by simp only [Doc.small]⟩
    | uint w => simp only [DocOf]; exact fmtInt_doc h
    | sint w => simp only [DocOf]; exact fmtInt_doc h
    | usize => simp only [DocOf]; exact fmtInt_doc h
    | isize => simp only [DocOf]; exact fmtInt_doc h
    | char => simp [Ty.bufferable] at hb
    | f32 => simp [Ty.bufferable] at hb
    | f64 => simp [Ty.bufferable] at hb
  | .nonZero sg w, _, _, _, v, s, h => by
    simp only [encJ] at h
    simp only [DocOf]
    cases sg
    · exact fmtInt_doc (p := .uint w) h
    · exact fmtInt_doc (p := .sint w) h
  | .unit, _, _, _, v, s, h => by
    simp only [encJ] at h; cases h
    exact ⟨.null, by simp only [DocOf], by simp only [Doc.text]; rfl, by simp only [Doc.small]⟩
  | .string, _, _, _, v, s, h => by
    simp only [encJ] at h; cases h
    exact ⟨.str v, by simp only [DocOf], by simp only [Doc.text]; exact strText_str v,
      by simp only [Doc.small]⟩
  | .array n t, hb, ho, he, v, s, h => by
    simp only [encJ] at h
    simp only [DocOf]
    obtain ⟨ds, h1, h2, h3⟩ := brackets_doc h fun e h => sepAll_docs (r := DocOf env t) v.1
      (fun a _ x hx => encJ_doc t (by simpa only [Ty.bufferable] using hb)
        (by simpa only [Ty.jsonOk] using ho) (by simpa only [Ty.envOk] using he) a x hx) true e h
    exact ⟨_, ⟨ds, rfl, h1⟩, h2, h3⟩
  | .vec t, hb, ho, he, v, s, h => by
    simp only [encJ] at h
    simp only [DocOf]
    obtain ⟨ds, h1, h2, h3⟩ := brackets_doc h fun e h => sepAll_docs (r := DocOf env t) v
      (fun a _ x hx => encJ_doc t (by simpa only [Ty.bufferable] using hb)
        (by simpa only [Ty.jsonOk] using ho) (by simpa only [Ty.envOk] using he) a x hx) true e h
    exact ⟨_, ⟨ds, rfl, h1⟩, h2, h3⟩
  | .set t, hb, ho, he, v, s, h => by
    simp only [encJ] at h
    simp only [DocOf]
    obtain ⟨ds, h1, h2, h3⟩ := brackets_doc h fun e h => sepAll_docs (r := DocOf env t) v
      (fun a _ x hx => encJ_doc t (by simpa only [Ty.bufferable] using hb)
        (by simpa only [Ty.jsonOk] using ho) (by simpa only [Ty.envOk] using he) a x hx) true e h
    exact ⟨_, ⟨ds, rfl, h1⟩, h2, h3⟩
  | .map k t, hb, ho, he, v, s, h => by
    simp only [encJ] at h
    simp only [DocOf]
    simp only [Ty.envOk] at he
    obtain ⟨ds, h1, h2, h3⟩ := braces_doc h fun e h => sepAll_members
      (r := fun x m => KeyDoc k x.1 m.1 ∧ DocOf env t x.2 m.2) v
      (fun a _ x hx => member_doc hx (fun x hx => encKey_doc k a.1 x hx)
        (fun x hx => encJ_doc t (by simpa only [Ty.bufferable] using hb)
          (by simpa only [Ty.jsonOk] using ho) he.2 a.2 x hx)) true e h
    exact ⟨_, ⟨ds, rfl, h1⟩, h2, h3⟩
  | .tuple ts, hb, ho, he, v, s, h => by
    simp only [encJ] at h
    simp only [DocOf]
    obtain ⟨ds, h1, h2, h3⟩ := brackets_doc h fun e h => encTysJ_doc ts
      (by simpa only [Ty.bufferable] using hb) (by simpa only [Ty.jsonOk] using ho)
      (by simpa only [Ty.envOk] using he) v true e h
    exact ⟨_, ⟨ds, [], by rw [List.append_nil], h1⟩, h2, h3⟩
  | .boxed t, hb, ho, he, v, s, h => by
    simp only [encJ] at h
    simp only [DocOf]
    exact encJ_doc t (by simpa only [Ty.bufferable] using hb) (by simpa only [Ty.jsonOk] using ho)
      (by simpa only [Ty.envOk] using he) v s h
  | .wrapping t, hb, ho, he, v, s, h => by
    simp only [encJ] at h
    simp only [DocOf]
    exact encJ_doc t (by simpa only [Ty.bufferable] using hb) (by simpa only [Ty.jsonOk] using ho)
      (by simpa only [Ty.envOk] using he) v s h
  | .transparent t, hb, ho, he, v, s, h => by
    simp only [encJ] at h
    simp only [DocOf]
    exact encJ_doc t (by simpa only [Ty.bufferable] using hb) (by simpa only [Ty.jsonOk] using ho)
      (by simpa only [Ty.envOk] using he) v s h
  | .unitStruct, _, _, _, v, s, h => by
    simp only [encJ] at h
    simp only [DocOf]
    cases h
    refine ⟨.obj [], ⟨[], rfl⟩, ?_, by simp only [Doc.small, smallMembers]⟩
    simp only [Doc.text, memberTexts]
    exact ⟨[], ws_nil, rfl⟩
  | .strct nt fs, hb, ho, he, v, s, h => by
    simp only [encJ] at h
    simp only [DocOf]
    simp only [Ty.jsonOk, Bool.and_eq_true] at ho
    simp only [Ty.envOk] at he
    simp only [Ty.bufferable] at hb
    obtain ⟨ds, h1, h2, h3⟩ := braces_doc h fun e h => encFieldsJ_doc fs hb ho.2 he v true e h
    refine ⟨_, ⟨(fs.entries env v).map .inl, ds, rfl, ?_, ?_, ?_⟩, h2, h3⟩
    · intro n hn
      obtain ⟨_, _, h⟩ := List.mem_map.1 hn
      cases h
    · have : (List.map Sum.inl (fs.entries env v)).filterMap
          (Sum.getLeft? (α := fs.Known) (β := Name)) = fs.entries env v := by
        rw [List.filterMap_map]
        exact List.filterMap_some
      rw [this]
      exact assemble_perm env fs ho.1 he v _ (List.Perm.refl _)
    · rw [allRel_map]
      exact h1
  | .unitEnum _ names, _, _, _, v, s, h => by
    simp only [encJ] at h; simp only [DocOf]; exact encNameV_doc h
  | .bytes, hb, _, _, _, _, _ => by simp [Ty.bufferable] at hb
  | .byteArray _, hb, _, _, _, _, _ => by simp [Ty.bufferable] at hb
  | .option _, hb, _, _, _, _, _ => by simp [Ty.bufferable] at hb
  | .result _ _ _, hb, _, _, _, _, _ => by simp [Ty.bufferable] at hb
  | .packed _ _, hb, _, _, _, _, _ => by simp [Ty.bufferable] at hb
  | .enm _ _, hb, _, _, _, _, _ => by simp [Ty.bufferable] at hb

theorem encTysJ_doc : ∀ (ts : Tys), ts.bufferable = true → ts.jsonOk = true → ts.envOk env →
    ∀ (v : ts.Val) (first : Bool) (s : Bytes), encTysJ env ts first v = .ok s →
      ∃ ds, tysDoc env ts v ds ∧ After first (texts ds) s ∧ smalls ds
  | .nil, _, _, _, v, first, s, h => by
    simp only [encTysJ] at h; cases h
    exact ⟨[], by simp only [tysDoc], by simp only [texts]; exact after_nilI first, by simp only [smalls]⟩
  | .cons t ts, hb, ho, he, v, first, s, h => by
    simp only [encTysJ] at h
    simp only [Tys.bufferable, Bool.and_eq_true] at hb
    simp only [Tys.jsonOk, Bool.and_eq_true] at ho
    simp only [Tys.envOk] at he
    obtain ⟨c, y, hc, hy, rfl⟩ := Enc.seq_eq_ok.mp h
    obtain ⟨x, q, hx, hq, rfl⟩ := Enc.seq_eq_ok.mp hy
    obtain ⟨d, h1, h2, h3⟩ := encJ_doc t hb.1 ho.1 he.1 v.1 x hx
    obtain ⟨ds, h4, h5, h6⟩ := encTysJ_doc ts hb.2 ho.2 he.2 v.2 false q hq
    refine ⟨d :: ds, ?_, ?_, ?_⟩
    · simp only [tysDoc]; exact ⟨d, ds, rfl, h1, h4⟩
    · simp only [texts]; exact after_consI hc h2 h5
    · simp only [smalls]; exact ⟨h3, h6⟩

theorem encFieldsJ_doc : ∀ (fs : Fields), fs.bufferable = true → fs.jsonOk = true → fs.envOk env →
    ∀ (v : fs.Val) (first : Bool) (s : Bytes), encFieldsJ env fs first v = .ok s →
      ∃ ds, AllRel (fun (k : fs.Known) (m : Str × Doc) => NameKeyDoc (fs.keyOf k) m.1 ∧ knownDoc env fs k m.2)
        (fs.entries env v) ds ∧ After first (memberTexts ds) s ∧ smallMembers ds
  | .nil, _, _, _, v, first, s, h => by
    simp only [encFieldsJ] at h; cases h
    exact ⟨[], trivial, by simp only [memberTexts]; exact after_nilI first, by simp only [smallMembers]⟩
  | .cons n df sk t fs, hb, ho, he, v, first, s, h => by
    simp only [encFieldsJ] at h
    simp only [Fields.bufferable, Bool.and_eq_true] at hb
    simp only [Fields.jsonOk, Bool.and_eq_true] at ho
    simp only [Fields.envOk] at he
    have tail : ∀ first s, encFieldsJ env fs first v.2 = .ok s → ∃ ds,
        AllRel (fun (k : (Fields.cons n df sk t fs).Known) (m : Str × Doc) =>
          NameKeyDoc ((Fields.cons n df sk t fs).keyOf k) m.1 ∧ knownDoc env (.cons n df sk t fs) k m.2)
        ((fs.entries env v.2).map .inr) ds ∧ After first (memberTexts ds) s ∧ smallMembers ds := by
      intro first s h
      obtain ⟨ds, h1, h2⟩ := encFieldsJ_doc fs hb.2 ho.2 he.2.2 v.2 first s h
      refine ⟨ds, ?_, h2⟩
      rw [allRel_map]
      simp only [knownDoc]
      exact h1
    simp only [Fields.entries]
    cases hp : fieldPresent env sk t v.1 with
    | false =>
      rw [hp] at h
      simp only [Bool.false_eq_true, if_false, List.nil_append] at h ⊢
      exact tail first s h
    | true =>
      rw [hp] at h
      simp only [if_true, List.cons_append, List.nil_append] at h ⊢
      obtain ⟨c, y, hc, hy, rfl⟩ := Enc.seq_eq_ok.mp h
      obtain ⟨kx, z, hk, hz, rfl⟩ := Enc.seq_eq_ok.mp hy
      obtain ⟨co, z', hco, hz', rfl⟩ := Enc.seq_eq_ok.mp hz
      obtain ⟨x, r, hx, hr, rfl⟩ := Enc.seq_eq_ok.mp hz'
      cases hco
      obtain ⟨ds, h4, h5, h6⟩ := tail false r hr
      obtain ⟨k, h1, h2⟩ := encNameK_doc hk
      obtain ⟨d, h7, h8, h9⟩ := encJ_doc t hb.1 ho.1 he.2.1 v.1 x hx
      refine ⟨(k, d) :: ds, ⟨⟨h1, by simp only [knownDoc]; exact h7⟩, h4⟩, ?_, ?_⟩
      · simp only [memberTexts]
        have hm : memberText (k, d) (kx ++ (0x3A#8 :: x)) := by
          simp only [memberText]
          exact ⟨kx, [], [], x, h2, ws_nil, ws_nil, h8, rfl⟩
        have := after_consI hc hm h5
        simpa using this
      · simp only [smallMembers, smallMember]; exact ⟨h9, h6⟩

end
end

end Musli.Json
