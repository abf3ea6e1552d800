import Verif.Proofs.Serde.JsonAny
import Verif.Proofs.Value.JsonEncode
/-!
# The JSON document for serde data
-/
set_option linter.unusedSectionVars false
namespace Musli.Serde.Json
open Musli.Json Musli.Json.Spec

/-! ## The document -/

theorem serKey_doc : ∀ (d : SData) (s : Bytes), serKey d = .ok s → ∃ k, d.KeyIs k ∧ StringText k s
  | .uint w v, s, h => by
    obtain ⟨k, ⟨i, hi, hk⟩, hs⟩ := encPrimKey_doc (p := .uint w) (v := v) h
    cases hi
    exact ⟨k, hk, hs⟩
  | .sint w v, s, h => by
    obtain ⟨k, ⟨i, hi, hk⟩, hs⟩ := encPrimKey_doc (p := .sint w) (v := v) h
    cases hi
    exact ⟨k, hk, hs⟩
  | .str n, s, h => by cases h; exact ⟨n, rfl, strText_str n⟩
  | .newtypeStruct d, s, h => serKey_doc d s h
  | .bool _, _, h => by cases h
  | .char _, _, h => by cases h
  | .f32 _, _, h => by cases h
  | .f64 _, _, h => by cases h
  | .bytes _, _, h => by cases h
  | .none, _, h => by cases h
  | .some _, _, h => by cases h
  | .unit, _, h => by cases h
  | .unitStruct, _, h => by cases h
  | .unitVariant _, _, h => by cases h
  | .newtypeVariant _ _, _, h => by cases h
  | .seq _ _, _, h => by cases h
  | .tuple _, _, h => by cases h
  | .tupleStruct _, _, h => by cases h
  | .tupleVariant _ _, _, h => by cases h
  | .map _ _, _, h => by cases h
  | .struct _, _, h => by cases h
  | .structVariant _ _, _, h => by cases h

theorem uint_doc {w : IW} {v : BitVec w.bits} {s : Bytes} (h : encPrim (.uint w) v = .ok s) :
    (Doc.num false v.toNat).text s ∧ (Doc.num false v.toNat).small := by
  cases h
  refine ⟨?_, ?_⟩
  · simp only [Doc.text]
    exact ⟨_, decimal_numeral _, value_decimal _, rfl⟩
  · simp only [Doc.small, Bool.false_eq_true, if_false]
    have h1 := BitVec.isLt (w := w.bits) v
    have h2 : 2 ^ w.bits ≤ 2 ^ 128 := by cases w <;> decide
    omega

theorem sint_doc {w : IW} {v : BitVec w.bits} {s : Bytes} (h : encPrim (.sint w) v = .ok s) :
    (Doc.num (decide (v.toInt < 0)) v.toInt.natAbs).text s ∧
    (Doc.num (decide (v.toInt < 0)) v.toInt.natAbs).small := by
  have hi : primInt (.sint w) v = some v.toInt := rfl
  have hr := primInt_range hi
  obtain ⟨i, h1, rfl⟩ := fmtInt_int (p := .sint w) (v := v) h
  cases h1
  refine ⟨?_, ?_⟩
  · simp only [Doc.text]
    exact ⟨_, decimal_numeral _, value_decimal _, rfl⟩
  · simp only [Doc.small]
    by_cases h : v.toInt < 0
    · simp only [h, decide_true, if_true]; omega
    · simp only [h, decide_false, Bool.false_eq_true, if_false]; omega

theorem bytes_texts (l : Bytes) :
    texts (l.map fun x => .num false x.toNat) = l.map (fun b => NatText b.toNat) := by
  rw [texts_eq, List.map_map]
  apply List.map_congr_left
  intro b _
  funext s
  apply propext
  simp only [Function.comp_apply, Doc.text]
  constructor
  · rintro ⟨num, h1, h2, rfl⟩
    exact ⟨h1, h2⟩
  · intro h
    exact ⟨s, h.1, h.2, rfl⟩

theorem bytes_smalls : ∀ (l : Bytes), smalls (l.map fun x => Doc.num false x.toNat)
  | [] => by simp only [List.map_nil, smalls]
  | b :: l => by
    simp only [List.map_cons, smalls, Doc.small, Bool.false_eq_true, if_false]
    exact ⟨by have := b.isLt; omega, bytes_smalls l⟩

theorem null_doc : Doc.null.text strNull ∧ Doc.null.small := by
  refine ⟨by simp only [Doc.text]; rfl, by simp only [Doc.small]⟩

theorem variant_doc {n : Str} {b : Enc} {s : Bytes} {R : Doc → Prop} (h : variant n b = .ok s)
    (hb : ∀ x, b = .ok x → ∃ e, R e ∧ e.text x ∧ e.small) :
    ∃ e, R e ∧ (Doc.obj [(n, e)]).text s ∧ (Doc.obj [(n, e)]).small := by
  obtain ⟨ds, ⟨e, he, rfl⟩, h2, h3⟩ := braces_doc (R := fun ds => ∃ e, R e ∧ ds = [(n, e)]) h fun x hx => by
    obtain ⟨⟨k, e⟩, ⟨h1, h2⟩, h3, h4⟩ := member_doc (rk := fun k => k = n) (rd := R) hx
      (fun x hx => by cases hx; exact ⟨n, rfl, strText_str n⟩) hb
    cases h1
    refine ⟨_, ⟨e, h2, rfl⟩, ?_, ?_⟩
    · simp only [memberTexts]
      exact ⟨[], x, [], ws_nil, h3, ws_nil, by simp⟩
    · simp only [smallMembers]; exact ⟨h4, trivial⟩
  exact ⟨e, he, h2, h3⟩

mutual

theorem serJ_doc : ∀ (d : SData) (s : Bytes), serJ d = .ok s → ∃ e, d.Is e ∧ e.text s ∧ e.small
  | .bool b, s, h => by
    rw [serJ] at h; cases h
    exact ⟨.bool b, by simp only [SData.Is], by simp only [Doc.text]; rfl, by simp only [Doc.small]⟩
  | .char c, s, h => by
    rw [serJ] at h
    cases h
    have := strText_encode [c]
    refine ⟨.str ⟨Utf8.encode [c], (Utf8.valid_iff _).2 ⟨[c], rfl⟩⟩, ?_, ?_, by simp only [Doc.small]⟩
    · simp only [SData.Is]; exact ⟨_, rfl, rfl⟩
    · simp only [Doc.text]
      refine ⟨[c], rfl, ?_⟩
      rw [Utf8.encode_cons] at this
      exact (List.append_nil (Utf8.encodeChar c) ▸ this : StrText [c] _)
  | .uint w v, s, h => by
    rw [serJ] at h
    exact ⟨_, by simp only [SData.Is], (uint_doc h).1, (uint_doc h).2⟩
  | .sint w v, s, h => by
    rw [serJ] at h
    exact ⟨_, by simp only [SData.Is], (sint_doc h).1, (sint_doc h).2⟩
  | .f32 _, s, h => by rw [serJ] at h; cases h
  | .f64 _, s, h => by rw [serJ] at h; cases h
  | .str n, s, h => by
    rw [serJ] at h; cases h
    exact ⟨.str n, by simp only [SData.Is], by simp only [Doc.text]; exact strText_str n,
      by simp only [Doc.small]⟩
  | .bytes b, s, h => by
    rw [serJ] at h
    refine ⟨.arr (b.map fun x => .num false x.toNat), by simp only [SData.Is], ?_, ?_⟩
    · simp only [Doc.text]; rw [bytes_texts]; exact encBytes_arr h
    · simp only [Doc.small]; exact bytes_smalls b
  | .none, s, h => by
    rw [serJ] at h; cases h
    exact ⟨.null, by simp only [SData.Is], null_doc.1, null_doc.2⟩
  | .some d, s, h => by
    rw [serJ] at h
    simp only [SData.Is]
    exact serJ_doc d s h
  | .unit, s, h => by
    rw [serJ] at h; cases h
    exact ⟨.null, by simp only [SData.Is], null_doc.1, null_doc.2⟩
  | .unitStruct, s, h => by
    rw [serJ] at h; cases h
    exact ⟨.null, by simp only [SData.Is], null_doc.1, null_doc.2⟩
  | .unitVariant n, s, h => by
    rw [serJ] at h
    obtain ⟨e, rfl, h2⟩ := variant_doc (R := fun e => e = .null) h
      (fun x hx => by cases hx; exact ⟨.null, rfl, null_doc.1, null_doc.2⟩)
    exact ⟨_, by simp only [SData.Is], h2⟩
  | .newtypeStruct d, s, h => by
    rw [serJ] at h
    simp only [SData.Is]
    exact serJ_doc d s h
  | .newtypeVariant n d, s, h => by
    rw [serJ] at h
    obtain ⟨e, h1, h2⟩ := variant_doc (R := d.Is) h (fun x hx => serJ_doc d x hx)
    exact ⟨_, by simp only [SData.Is]; exact ⟨e, h1, rfl⟩, h2⟩
  | .seq _ l, s, h => by
    rw [serJ] at h
    obtain ⟨ds, h1, h2⟩ := brackets_doc h fun e => serSeqJ_doc l true e
    exact ⟨_, by simp only [SData.Is]; exact ⟨ds, h1, rfl⟩, h2⟩
  | .tuple l, s, h => by
    rw [serJ] at h
    obtain ⟨ds, h1, h2⟩ := brackets_doc h fun e => serSeqJ_doc l true e
    exact ⟨_, by simp only [SData.Is]; exact ⟨ds, h1, rfl⟩, h2⟩
  | .tupleStruct l, s, h => by
    rw [serJ] at h
    obtain ⟨ds, h1, h2⟩ := brackets_doc h fun e => serSeqJ_doc l true e
    exact ⟨_, by simp only [SData.Is]; exact ⟨ds, h1, rfl⟩, h2⟩
  | .tupleVariant n l, s, h => by
    rw [serJ] at h
    obtain ⟨e, ⟨ds, h1, rfl⟩, h2⟩ := variant_doc (R := fun e => ∃ ds, SData.Are l ds ∧ e = .arr ds) h
      (fun x hx => by
        obtain ⟨ds, h1, h2⟩ := brackets_doc hx fun e => serSeqJ_doc l true e
        exact ⟨_, ⟨ds, h1, rfl⟩, h2⟩)
    exact ⟨_, by simp only [SData.Is]; exact ⟨ds, h1, rfl⟩, h2⟩
  | .map known l, s, h => by
    rw [serJ] at h
    cases known with
    | false => cases h
    | true =>
      obtain ⟨ds, h1, h2⟩ := braces_doc h fun e => serMapJ_doc l true e
      exact ⟨_, by simp only [SData.Is]; exact ⟨ds, h1, rfl⟩, h2⟩
  | .struct l, s, h => by
    rw [serJ] at h
    obtain ⟨ds, h1, h2⟩ := braces_doc h fun e => serFieldsJ_doc l true e
    exact ⟨_, by simp only [SData.Is]; exact ⟨ds, h1, rfl⟩, h2⟩
  | .structVariant n l, s, h => by
    rw [serJ] at h
    obtain ⟨e, ⟨ds, h1, rfl⟩, h2⟩ := variant_doc (R := fun e => ∃ ds, SData.FieldsAre l ds ∧ e = .obj ds) h
      (fun x hx => by
        obtain ⟨ds, h1, h2⟩ := braces_doc hx fun e => serFieldsJ_doc l true e
        exact ⟨_, ⟨ds, h1, rfl⟩, h2⟩)
    exact ⟨_, by simp only [SData.Is]; exact ⟨ds, h1, rfl⟩, h2⟩

theorem serSeqJ_doc : ∀ (l : List SData) (first : Bool) (s : Bytes), serSeqJ first l = .ok s →
    ∃ ds, SData.Are l ds ∧ After first (texts ds) s ∧ smalls ds
  | [], first, s, h => by
    rw [serSeqJ] at h; cases h
    exact ⟨[], by simp only [SData.Are], by simp only [texts]; exact after_nilI first,
      by simp only [smalls]⟩
  | d :: l, first, s, h => by
    rw [serSeqJ] at h
    obtain ⟨c, y, hc, hy, rfl⟩ := Enc.seq_eq_ok.mp h
    obtain ⟨x, q, hx, hq, rfl⟩ := Enc.seq_eq_ok.mp hy
    obtain ⟨e, h1, h2, h3⟩ := serJ_doc d x hx
    obtain ⟨ds, h4, h5, h6⟩ := serSeqJ_doc l false q hq
    refine ⟨e :: ds, ?_, ?_, ?_⟩
    · simp only [SData.Are]; exact ⟨e, ds, rfl, h1, h4⟩
    · simp only [texts]; exact after_consI hc h2 h5
    · simp only [smalls]; exact ⟨h3, h6⟩

theorem serMapJ_doc : ∀ (l : List (SData × SData)) (first : Bool) (s : Bytes), serMapJ first l = .ok s →
    ∃ ds, SData.PairsAre l ds ∧ After first (memberTexts ds) s ∧ smallMembers ds
  | [], first, s, h => by
    rw [serMapJ] at h; cases h
    exact ⟨[], by simp only [SData.PairsAre], by simp only [memberTexts]; exact after_nilI first,
      by simp only [smallMembers]⟩
  | p :: l, first, s, h => by
    rw [serMapJ] at h
    obtain ⟨c, y, hc, hy, rfl⟩ := Enc.seq_eq_ok.mp h
    obtain ⟨x, q, hx, hq, rfl⟩ := Enc.seq_eq_ok.mp hy
    obtain ⟨e, h1, h2, h3⟩ := serPairJ_doc p x hx
    obtain ⟨ds, h4, h5, h6⟩ := serMapJ_doc l false q hq
    refine ⟨e :: ds, ?_, ?_, ?_⟩
    · simp only [SData.PairsAre]; exact ⟨e, ds, rfl, h1, h4⟩
    · simp only [memberTexts]; exact after_consI hc h2 h5
    · simp only [smallMembers]; exact ⟨h3, h6⟩

theorem serPairJ_doc : ∀ (p : SData × SData) (s : Bytes), serPairJ p = .ok s →
    ∃ m, SData.PairIs p m ∧ memberText m s ∧ smallMember m
  | (k, d), s, h => by
    rw [serPairJ] at h
    obtain ⟨⟨n, e⟩, h1, h2⟩ := member_doc (rk := k.KeyIs) (rd := d.Is) h (fun x => serKey_doc k x)
      (fun x => serJ_doc d x)
    exact ⟨(n, e), by simp only [SData.PairIs]; exact h1, h2⟩

theorem serFieldsJ_doc : ∀ (l : List (Str × SData)) (first : Bool) (s : Bytes), serFieldsJ first l = .ok s →
    ∃ ds, SData.FieldsAre l ds ∧ After first (memberTexts ds) s ∧ smallMembers ds
  | [], first, s, h => by
    rw [serFieldsJ] at h; cases h
    exact ⟨[], by simp only [SData.FieldsAre], by simp only [memberTexts]; exact after_nilI first,
      by simp only [smallMembers]⟩
  | p :: l, first, s, h => by
    rw [serFieldsJ] at h
    obtain ⟨c, y, hc, hy, rfl⟩ := Enc.seq_eq_ok.mp h
    obtain ⟨x, q, hx, hq, rfl⟩ := Enc.seq_eq_ok.mp hy
    obtain ⟨e, h1, h2, h3⟩ := serFieldJ_doc p x hx
    obtain ⟨ds, h4, h5, h6⟩ := serFieldsJ_doc l false q hq
    refine ⟨e :: ds, ?_, ?_, ?_⟩
    · simp only [SData.FieldsAre]; exact ⟨e, ds, rfl, h1, h4⟩
    · simp only [memberTexts]; exact after_consI hc h2 h5
    · simp only [smallMembers]; exact ⟨h3, h6⟩

theorem serFieldJ_doc : ∀ (p : Str × SData) (s : Bytes), serFieldJ p = .ok s →
    ∃ m, SData.FieldIs p m ∧ memberText m s ∧ smallMember m
  | (k, d), s, h => by
    rw [serFieldJ] at h
    obtain ⟨⟨n, e⟩, h1, h2⟩ := member_doc (rk := fun n => n = k) (rd := d.Is) h
      (fun x hx => by cases hx; exact ⟨k, rfl, strText_str k⟩) (fun x => serJ_doc d x)
    exact ⟨(n, e), by simp only [SData.FieldIs]; exact h1, h2⟩

end

/-! ## What can be written -/

/-- It is written. -/
def Written (e : Enc) : Prop := ∃ s, e = .ok s

theorem written_seq {a b : Enc} : Written (a +> b) ↔ Written a ∧ Written b := by
  unfold Written
  constructor
  · rintro ⟨s, h⟩
    obtain ⟨x, y, hx, hy, _⟩ := Enc.seq_eq_ok.mp h
    exact ⟨⟨x, hx⟩, ⟨y, hy⟩⟩
  · rintro ⟨⟨x, hx⟩, ⟨y, hy⟩⟩
    exact ⟨x ++ y, Enc.seq_eq_ok.mpr ⟨x, y, hx, hy, rfl⟩⟩

theorem written_ok (b : Bytes) : Written (.ok b) ↔ True := ⟨fun _ => trivial, fun _ => ⟨b, rfl⟩⟩

theorem written_error (e : Err) : Written (.error e) ↔ False :=
  ⟨fun ⟨_, h⟩ => (nomatch h), False.elim⟩

theorem written_comma (first : Bool) : Written (comma first) ↔ True := by
  cases first <;> exact written_ok _

theorem written_brackets (b : Enc) : Written (brackets b) ↔ Written b := by
  unfold brackets
  simp only [written_seq, written_ok, true_and, and_true]

theorem written_braces (b : Enc) : Written (braces b) ↔ Written b := by
  unfold braces
  simp only [written_seq, written_ok, true_and, and_true]

theorem written_variant (n : Str) (b : Enc) : Written (variant n b) ↔ Written b := by
  unfold variant
  simp only [written_braces, written_seq, written_ok, true_and]

theorem written_key : ∀ (d : SData), Written (serKey d) ↔ d.isKey = true
  | .uint w v => by rw [serKey, SData.isKey]; exact ⟨fun _ => rfl, fun _ => ⟨_, rfl⟩⟩
  | .sint w v => by rw [serKey, SData.isKey]; exact ⟨fun _ => rfl, fun _ => ⟨_, rfl⟩⟩
  | .str n => by rw [serKey, SData.isKey]; exact ⟨fun _ => rfl, fun _ => ⟨_, rfl⟩⟩
  | .newtypeStruct d => by rw [serKey, SData.isKey]; exact written_key d
  | .bool _ => ⟨fun ⟨_, h⟩ => (nomatch h), fun h => (nomatch h)⟩
  | .char _ => ⟨fun ⟨_, h⟩ => (nomatch h), fun h => (nomatch h)⟩
  | .f32 _ => ⟨fun ⟨_, h⟩ => (nomatch h), fun h => (nomatch h)⟩
  | .f64 _ => ⟨fun ⟨_, h⟩ => (nomatch h), fun h => (nomatch h)⟩
  | .bytes _ => ⟨fun ⟨_, h⟩ => (nomatch h), fun h => (nomatch h)⟩
  | .none => ⟨fun ⟨_, h⟩ => (nomatch h), fun h => (nomatch h)⟩
  | .some _ => ⟨fun ⟨_, h⟩ => (nomatch h), fun h => (nomatch h)⟩
  | .unit => ⟨fun ⟨_, h⟩ => (nomatch h), fun h => (nomatch h)⟩
  | .unitStruct => ⟨fun ⟨_, h⟩ => (nomatch h), fun h => (nomatch h)⟩
  | .unitVariant _ => ⟨fun ⟨_, h⟩ => (nomatch h), fun h => (nomatch h)⟩
  | .newtypeVariant _ _ => ⟨fun ⟨_, h⟩ => (nomatch h), fun h => (nomatch h)⟩
  | .seq _ _ => ⟨fun ⟨_, h⟩ => (nomatch h), fun h => (nomatch h)⟩
  | .tuple _ => ⟨fun ⟨_, h⟩ => (nomatch h), fun h => (nomatch h)⟩
  | .tupleStruct _ => ⟨fun ⟨_, h⟩ => (nomatch h), fun h => (nomatch h)⟩
  | .tupleVariant _ _ => ⟨fun ⟨_, h⟩ => (nomatch h), fun h => (nomatch h)⟩
  | .map _ _ => ⟨fun ⟨_, h⟩ => (nomatch h), fun h => (nomatch h)⟩
  | .struct _ => ⟨fun ⟨_, h⟩ => (nomatch h), fun h => (nomatch h)⟩
  | .structVariant _ _ => ⟨fun ⟨_, h⟩ => (nomatch h), fun h => (nomatch h)⟩

mutual

theorem written_iff : ∀ (d : SData), Written (serJ d) ↔ d.writable = true
  | .bool b => by simp only [serJ, SData.writable]; exact ⟨fun _ => trivial, fun _ => ⟨_, rfl⟩⟩
  | .char c => by simp only [serJ, SData.writable]; exact ⟨fun _ => trivial, fun _ => ⟨_, rfl⟩⟩
  | .uint w v => by simp only [serJ, SData.writable]; exact ⟨fun _ => trivial, fun _ => ⟨_, rfl⟩⟩
  | .sint w v => by simp only [serJ, SData.writable]; exact ⟨fun _ => trivial, fun _ => ⟨_, rfl⟩⟩
  | .f32 _ => by simp only [serJ, SData.writable]; exact ⟨fun ⟨_, h⟩ => (nomatch h), fun h => (nomatch h)⟩
  | .f64 _ => by simp only [serJ, SData.writable]; exact ⟨fun ⟨_, h⟩ => (nomatch h), fun h => (nomatch h)⟩
  | .str n => by simp only [serJ, SData.writable]; exact ⟨fun _ => trivial, fun _ => ⟨_, rfl⟩⟩
  | .bytes b => by simp only [serJ, SData.writable]; exact ⟨fun _ => trivial, fun _ => ⟨_, rfl⟩⟩
  | .none => by simp only [serJ, SData.writable]; exact ⟨fun _ => trivial, fun _ => ⟨_, rfl⟩⟩
  | .some d => by simp only [serJ, SData.writable]; exact written_iff d
  | .unit => by simp only [serJ, SData.writable]; exact ⟨fun _ => trivial, fun _ => ⟨_, rfl⟩⟩
  | .unitStruct => by simp only [serJ, SData.writable]; exact ⟨fun _ => trivial, fun _ => ⟨_, rfl⟩⟩
  | .unitVariant n => by
    simp only [serJ, SData.writable, written_variant, written_ok]
  | .newtypeStruct d => by simp only [serJ, SData.writable]; exact written_iff d
  | .newtypeVariant n d => by simp only [serJ, SData.writable, written_variant]; exact written_iff d
  | .seq _ l => by simp only [serJ, SData.writable, written_brackets]; exact written_seqJ l true
  | .tuple l => by simp only [serJ, SData.writable, written_brackets]; exact written_seqJ l true
  | .tupleStruct l => by simp only [serJ, SData.writable, written_brackets]; exact written_seqJ l true
  | .tupleVariant n l => by
    simp only [serJ, SData.writable, written_variant, written_brackets]; exact written_seqJ l true
  | .map known l => by
    simp only [serJ, SData.writable]
    cases known with
    | false => exact ⟨fun ⟨_, h⟩ => (nomatch h), fun h => (nomatch h)⟩
    | true => simp only [if_true, Bool.true_and, written_braces]; exact written_mapJ l true
  | .struct l => by simp only [serJ, SData.writable, written_braces]; exact written_fieldsJ l true
  | .structVariant n l => by
    simp only [serJ, SData.writable, written_variant, written_braces]; exact written_fieldsJ l true

theorem written_seqJ : ∀ (l : List SData) (first : Bool), Written (serSeqJ first l) ↔ SData.writables l = true
  | [], first => by simp only [serSeqJ, SData.writables, written_ok]
  | d :: l, first => by
    simp only [serSeqJ, SData.writables, written_seq, written_comma, true_and, Bool.and_eq_true,
      written_iff d, written_seqJ l false]

theorem written_mapJ : ∀ (l : List (SData × SData)) (first : Bool),
    Written (serMapJ first l) ↔ SData.writablePairs l = true
  | [], first => by simp only [serMapJ, SData.writablePairs, written_ok]
  | p :: l, first => by
    simp only [serMapJ, SData.writablePairs, written_seq, written_comma, true_and, Bool.and_eq_true,
      written_pairJ p, written_mapJ l false]

theorem written_pairJ : ∀ (p : SData × SData), Written (serPairJ p) ↔ SData.writablePair p = true
  | (k, d) => by
    simp only [serPairJ, SData.writablePair, written_seq, written_ok, true_and, Bool.and_eq_true,
      written_iff d, written_key k]

theorem written_fieldsJ : ∀ (l : List (Str × SData)) (first : Bool),
    Written (serFieldsJ first l) ↔ SData.writableFields l = true
  | [], first => by simp only [serFieldsJ, SData.writableFields, written_ok]
  | p :: l, first => by
    simp only [serFieldsJ, SData.writableFields, written_seq, written_comma, true_and, Bool.and_eq_true,
      written_fieldJ p, written_fieldsJ l false]

theorem written_fieldJ : ∀ (p : Str × SData), Written (serFieldJ p) ↔ SData.writableField p = true
  | (k, d) => by
    simp only [serFieldJ, SData.writableField, written_seq, written_ok, true_and, written_iff d]

end

/-! ## What the document keeps -/

theorem keyIs_str : ∀ (d : SData) (k : Str), d.isStr = true → d.KeyIs k → d.plain = .text k
  | .str n, k, _, h => by
    have h : k = n := h
    subst h; rw [SData.plain]
  | .newtypeStruct d, k, hs, h => by rw [SData.plain]; exact keyIs_str d k hs h
  | .uint w v, _, h, _ => nomatch h
  | .sint w v, _, h, _ => nomatch h
  | .bool _, _, h, _ => nomatch h
  | .char _, _, h, _ => nomatch h
  | .f32 _, _, h, _ => nomatch h
  | .f64 _, _, h, _ => nomatch h
  | .bytes _, _, h, _ => nomatch h
  | .none, _, h, _ => nomatch h
  | .some _, _, h, _ => nomatch h
  | .unit, _, h, _ => nomatch h
  | .unitStruct, _, h, _ => nomatch h
  | .unitVariant _, _, h, _ => nomatch h
  | .newtypeVariant _ _, _, h, _ => nomatch h
  | .seq _ _, _, h, _ => nomatch h
  | .tuple _, _, h, _ => nomatch h
  | .tupleStruct _, _, h, _ => nomatch h
  | .tupleVariant _ _, _, h, _ => nomatch h
  | .map _ _, _, h, _ => nomatch h
  | .struct _, _, h, _ => nomatch h
  | .structVariant _ _, _, h, _ => nomatch h

mutual

theorem kept_plain : ∀ (d : SData) (e : Doc), d.kept = true → d.Is e → docPlain e = d.plain
  | .bool b, e, _, h => by simp only [SData.Is] at h; subst h; simp only [docPlain, SData.plain]
  | .uint w v, e, _, h => by
    simp only [SData.Is] at h; subst h
    simp [docPlain, SData.plain, signedValue]
  | .sint w v, e, _, h => by
    simp only [SData.Is] at h; subst h
    simp only [docPlain, SData.plain, Plain.int.injEq]
    unfold signedValue
    by_cases h : v.toInt < 0
    · simp only [h, decide_true, if_true]; omega
    · simp only [h, decide_false, Bool.false_eq_true, if_false]; omega
  | .str n, e, _, h => by simp only [SData.Is] at h; subst h; simp only [docPlain, SData.plain]
  | .unit, e, _, h => by simp only [SData.Is] at h; subst h; simp only [docPlain, SData.plain]
  | .unitStruct, e, _, h => by simp only [SData.Is] at h; subst h; simp only [docPlain, SData.plain]
  | .unitVariant n, e, _, h => by
    simp only [SData.Is] at h; subst h
    simp only [docPlain, docPlainMembers, docPlainMember, SData.plain]
  | .newtypeStruct d, e, hk, h => by
    simp only [SData.Is] at h
    simp only [SData.kept] at hk
    rw [SData.plain]; exact kept_plain d e hk h
  | .newtypeVariant n d, e, hk, h => by
    simp only [SData.Is] at h
    simp only [SData.kept] at hk
    obtain ⟨e, h, rfl⟩ := h
    simp only [docPlain, docPlainMembers, docPlainMember, SData.plain, kept_plain d e hk h]
  | .seq _ l, e, hk, h => by
    simp only [SData.Is] at h
    simp only [SData.kept] at hk
    obtain ⟨ds, h, rfl⟩ := h
    simp only [docPlain, SData.plain, kepts_plain l ds hk h]
  | .tuple l, e, hk, h => by
    simp only [SData.Is] at h
    simp only [SData.kept] at hk
    obtain ⟨ds, h, rfl⟩ := h
    simp only [docPlain, SData.plain, kepts_plain l ds hk h]
  | .tupleStruct l, e, hk, h => by
    simp only [SData.Is] at h
    simp only [SData.kept] at hk
    obtain ⟨ds, h, rfl⟩ := h
    simp only [docPlain, SData.plain, kepts_plain l ds hk h]
  | .tupleVariant n l, e, hk, h => by
    simp only [SData.Is] at h
    simp only [SData.kept] at hk
    obtain ⟨ds, h, rfl⟩ := h
    simp only [docPlain, docPlainMembers, docPlainMember, SData.plain, kepts_plain l ds hk h]
  | .map _ l, e, hk, h => by
    simp only [SData.Is] at h
    simp only [SData.kept] at hk
    obtain ⟨ds, h, rfl⟩ := h
    simp only [docPlain, SData.plain, keptPairs_plain l ds hk h]
  | .struct l, e, hk, h => by
    simp only [SData.Is] at h
    simp only [SData.kept] at hk
    obtain ⟨ds, h, rfl⟩ := h
    simp only [docPlain, SData.plain, keptFields_plain l ds hk h]
  | .structVariant n l, e, hk, h => by
    simp only [SData.Is] at h
    simp only [SData.kept] at hk
    obtain ⟨ds, h, rfl⟩ := h
    simp only [docPlain, docPlainMembers, docPlainMember, SData.plain, keptFields_plain l ds hk h]
  | .char _, _, h, _ => by simp [SData.kept] at h
  | .f32 _, _, h, _ => by simp [SData.kept] at h
  | .f64 _, _, h, _ => by simp [SData.kept] at h
  | .bytes _, _, h, _ => by simp [SData.kept] at h
  | .none, _, h, _ => by simp [SData.kept] at h
  | .some _, _, h, _ => by simp [SData.kept] at h

theorem kepts_plain : ∀ (l : List SData) (ds : List Doc), SData.kepts l = true → SData.Are l ds →
    docPlains ds = SData.plains l
  | [], ds, _, h => by simp only [SData.Are] at h; subst h; simp only [docPlains, SData.plains]
  | d :: l, ds, hk, h => by
    simp only [SData.Are] at h
    simp only [SData.kepts, Bool.and_eq_true] at hk
    obtain ⟨e, m, rfl, h1, h2⟩ := h
    simp only [docPlains, SData.plains, kept_plain d e hk.1 h1, kepts_plain l m hk.2 h2]

theorem keptPairs_plain : ∀ (l : List (SData × SData)) (ds : List (Str × Doc)), SData.keptPairs l = true →
    SData.PairsAre l ds → docPlainMembers ds = SData.plainPairs l
  | [], ds, _, h => by
    simp only [SData.PairsAre] at h; subst h; simp only [docPlainMembers, SData.plainPairs]
  | p :: l, ds, hk, h => by
    simp only [SData.PairsAre] at h
    simp only [SData.keptPairs, Bool.and_eq_true] at hk
    obtain ⟨e, m, rfl, h1, h2⟩ := h
    simp only [docPlainMembers, SData.plainPairs, keptPair_plain p e hk.1 h1, keptPairs_plain l m hk.2 h2]

theorem keptPair_plain : ∀ (p : SData × SData) (m : Str × Doc), SData.keptPair p = true →
    SData.PairIs p m → docPlainMember m = SData.plainPair p
  | (k, d), (n, e), hk, h => by
    simp only [SData.PairIs] at h
    simp only [SData.keptPair, Bool.and_eq_true] at hk
    simp only [docPlainMember, SData.plainPair, kept_plain d e hk.2 h.2, keyIs_str k n hk.1 h.1]

theorem keptFields_plain : ∀ (l : List (Str × SData)) (ds : List (Str × Doc)), SData.keptFields l = true →
    SData.FieldsAre l ds → docPlainMembers ds = SData.plainFields l
  | [], ds, _, h => by
    simp only [SData.FieldsAre] at h; subst h; simp only [docPlainMembers, SData.plainFields]
  | p :: l, ds, hk, h => by
    simp only [SData.FieldsAre] at h
    simp only [SData.keptFields, Bool.and_eq_true] at hk
    obtain ⟨e, m, rfl, h1, h2⟩ := h
    simp only [docPlainMembers, SData.plainFields, keptField_plain p e hk.1 h1, keptFields_plain l m hk.2 h2]

theorem keptField_plain : ∀ (p : Str × SData) (m : Str × Doc), SData.keptField p = true →
    SData.FieldIs p m → docPlainMember m = SData.plainField p
  | (k, d), (n, e), hk, h => by
    simp only [SData.FieldIs] at h
    simp only [SData.keptField] at hk
    obtain ⟨rfl, h⟩ := h
    simp only [docPlainMember, SData.plainField, kept_plain d e hk h]

end

end Musli.Serde.Json
