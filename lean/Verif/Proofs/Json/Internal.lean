import Verif.Proofs.Internal
import Verif.Proofs.Json.Tagged
import Verif.Proofs.Value.JsonEncode
/-!
# Internally tagged enums in JSON
-/
set_option linter.unusedSectionVars false
namespace Musli.Json
open Musli Spec

section
variable [Host] (flt : Bool → Parts 128 → BitVec 64) (env : Env)

theorem bodyEntriesJ_payload : ∀ (vs : Variants) (v : vs.Val),
    bodyEntriesJ env vs v = encEntriesJ env (vs.payload v).1 (vs.payload v).2
  | .nil, v => nomatch v
  | .cons _ t vs, .inl x => rfl
  | .cons _ t vs, .inr x => bodyEntriesJ_payload vs x

theorem smallMembers_append {l m : List (Str × Doc)} : smallMembers (l ++ m) ↔ smallMembers l ∧ smallMembers m := by
  simp only [smallMembers_iff, List.mem_append]
  exact ⟨fun h => ⟨fun x hx => h x (.inl hx), fun x hx => h x (.inr hx)⟩,
    fun h x hx => hx.elim (h.1 x) (h.2 x)⟩

theorem findTag_other {tag : Name} {nt : NameTy} : ∀ (pre : List (Str × Doc)) (l : List (Value × Value)),
    (∀ m ∈ pre, OtherKey tag m.1) →
    findTag bufferOptions tag nt (toPairs pre ++ l) = findTag bufferOptions tag nt l
  | [], l, _ => by rw [toPairs]; rfl
  | (k, d) :: pre, l, h => by
    obtain ⟨n, h1, h2, h3⟩ := h (k, d) (by simp)
    have hk := readName_key (o := bufferOptions) (by decide) h1
    rw [h2] at hk
    rw [toPairs, toPair, List.cons_append, findTag, ebind_ok hk, if_neg h3]
    exact findTag_other pre l (fun m hm => h m (by simp [hm]))

theorem toPairs_append : ∀ (l m : List (Str × Doc)), toPairs (l ++ m) = toPairs l ++ toPairs m
  | [], m => by rw [toPairs]; rfl
  | p :: l, m => by rw [List.cons_append, toPairs, toPairs, toPairs_append l m]; rfl

/-- A document for an internally tagged enum. -/
theorem internalJ_doc {tag : Name} {nt : NameTy} {vs : Variants} (hnd : vs.names.Nodup)
    (l : List (Str × Doc)) (hs : (Doc.obj l).small) (ws x rest : Bytes) (hw : Ws ws)
    (hx : (Doc.obj l).text x) (hr : NoNumber rest) :
    ((∀ m ∈ l, OtherKey tag m.1) →
      decInternalJ env flt tag nt vs (ws ++ (x ++ rest)) = .error (.missing, rest)) ∧
    (∀ pre k d post n, l = pre ++ (k, d) :: post → (∀ m ∈ pre, OtherKey tag m.1) →
      NameKeyDoc tag k → NameDoc n d → n.ty = nt →
      (n ∉ vs.names → decInternalJ env flt tag nt vs (ws ++ (x ++ rest)) = .error (.unknown, rest)) ∧
      (∀ v, vs.nameOf v = n → (vs.payload v).1.jsonNames = true →
        DocOf env (vs.payload v).1 (vs.payload v).2 (.obj l) →
        decInternalJ env flt tag nt vs (ws ++ (x ++ rest)) = .ok (v, rest))) := by
  have hrun : decInternalJ env flt tag nt vs (ws ++ (x ++ rest)) =
      P.ofExcept (findTag bufferOptions tag nt (toPairs l) >>= fun n =>
        decVariantsV bufferOptions env vs n (.map (toPairs l))) rest := by
    unfold decInternalJ
    rw [P.bind_ok (readValue_text flt _ hs x hx ws hw rest hr)]
    unfold internalV
    rw [Doc.toValue, ebind_ok (readMap_map _)]
  rw [hrun]
  constructor
  · intro h
    have := findTag_other (tag := tag) (nt := nt) l [] h
    rw [List.append_nil] at this
    rw [this]
    rfl
  · rintro pre k d post n rfl hpre hk hd hnt
    simp only [Doc.small, smallMembers_append, smallMembers, smallMember] at hs
    have hk := readName_key (o := bufferOptions) (by decide) hk
    have hd := readName_doc (o := bufferOptions) (key := false) hs.2.1 hd
    rw [hnt] at hd
    have hfind : findTag bufferOptions tag nt (toPairs (pre ++ (k, d) :: post)) = .ok n := by
      rw [toPairs_append, findTag_other pre _ hpre, toPairs, toPair, findTag, ebind_ok hk, if_pos rfl]
      exact hd
    rw [ebind_ok hfind]
    constructor
    · intro hn
      rw [decVariantsV_unknown _ env vs n _ hn]
      rfl
    · rintro v rfl hn hdoc
      have hsm : (Doc.obj (pre ++ (k, d) :: post)).small := by
        simp only [Doc.small, smallMembers_append, smallMembers, smallMember]; exact hs
      have := decV_doc (o := bufferOptions) (by decide) env _ hn false _ _ hsm hdoc
      rw [Doc.toValue] at this
      rw [decVariantsV_payload _ env vs v _ hnd this]
      rfl

/-- The entries after the tag. -/
theorem encEntriesJ_doc (tag : Name) : ∀ (t : Ty), t.record tag = true → t.bufferable = true →
    t.jsonOk = true → t.envOk env → ∀ (v : t.Val) (s : Bytes), encEntriesJ env t v = .ok s →
    ∃ l, After false (memberTexts l) s ∧ smallMembers l ∧
      ∀ k d, NameKeyDoc tag k → DocOf env t v (.obj ((k, d) :: l))
  | .strct nt fs, hr, hb, ho, he, v, s, h => by
    simp only [Ty.record, Bool.and_eq_true, decide_eq_true_eq] at hr
    simp only [encEntriesJ] at h
    simp only [Ty.jsonOk, Bool.and_eq_true] at ho
    simp only [Ty.envOk] at he
    simp only [Ty.bufferable] at hb
    obtain ⟨l, h1, h2, h3⟩ := encFieldsJ_doc env fs hb ho.2 he v false s h
    refine ⟨l, h2, h3, fun k d hk => ?_⟩
    simp only [DocOf]
    refine ⟨.inr tag :: (fs.entries env v).map .inl, (k, d) :: l, rfl, ?_, ?_, ?_, ?_⟩
    · intro n hn
      rcases List.mem_cons.1 hn with hn | hn
      · cases hn; exact ⟨hr.2, hr.1.symm⟩
      · obtain ⟨_, _, h⟩ := List.mem_map.1 hn
        cases h
    · have : (List.map Sum.inl (fs.entries env v)).filterMap
          (Sum.getLeft? (α := fs.Known) (β := Name)) = fs.entries env v := by
        rw [List.filterMap_map]
        exact List.filterMap_some
      rw [List.filterMap_cons, Sum.getLeft?_inr]
      dsimp only
      rw [this]
      exact assemble_perm env fs ho.1 he v _ (List.Perm.refl _)
    · exact hk
    · rw [allRel_map]
      exact h1
  | .unitStruct, _, _, _, _, v, s, h => by
    simp only [encEntriesJ] at h
    cases h
    refine ⟨[], by simp only [memberTexts]; exact after_nilI false, by simp only [smallMembers], fun k d _ => ?_⟩
    simp only [DocOf]
    exact ⟨_, rfl⟩
  | .transparent t, hr, hb, ho, he, v, s, h => by
    simp only [encEntriesJ] at h
    simp only [Ty.jsonOk] at ho
    simp only [Ty.envOk] at he
    simp only [Ty.bufferable] at hb
    obtain ⟨l, h1, h2, h3⟩ := encEntriesJ_doc tag t hr hb ho he v s h
    exact ⟨l, h1, h2, fun k d hk => by simp only [DocOf]; exact h3 k d hk⟩
  | .boxed t, hr, hb, ho, he, v, s, h => by
    simp only [encEntriesJ] at h
    simp only [Ty.jsonOk] at ho
    simp only [Ty.envOk] at he
    simp only [Ty.bufferable] at hb
    obtain ⟨l, h1, h2, h3⟩ := encEntriesJ_doc tag t hr hb ho he v s h
    exact ⟨l, h1, h2, fun k d hk => by simp only [DocOf]; exact h3 k d hk⟩
  | .wrapping t, hr, hb, ho, he, v, s, h => by
    simp only [encEntriesJ] at h
    simp only [Ty.jsonOk] at ho
    simp only [Ty.envOk] at he
    simp only [Ty.bufferable] at hb
    obtain ⟨l, h1, h2, h3⟩ := encEntriesJ_doc tag t hr hb ho he v s h
    exact ⟨l, h1, h2, fun k d hk => by simp only [DocOf]; exact h3 k d hk⟩
  | .prim _, hr, _, _, _, _, _, _ => by cases hr
  | .nonZero _ _, hr, _, _, _, _, _, _ => by cases hr
  | .unit, hr, _, _, _, _, _, _ => by cases hr
  | .bytes, hr, _, _, _, _, _, _ => by cases hr
  | .string, hr, _, _, _, _, _, _ => by cases hr
  | .byteArray _, hr, _, _, _, _, _, _ => by cases hr
  | .option _, hr, _, _, _, _, _, _ => by cases hr
  | .array _ _, hr, _, _, _, _, _, _ => by cases hr
  | .vec _, hr, _, _, _, _, _, _ => by cases hr
  | .set _, hr, _, _, _, _, _, _ => by cases hr
  | .map _ _, hr, _, _, _, _, _, _ => by cases hr
  | .tuple _, hr, _, _, _, _, _, _ => by cases hr
  | .result _ _ _, hr, _, _, _, _, _, _ => by cases hr
  | .packed _ _, hr, _, _, _, _, _, _ => by cases hr
  | .unitEnum _ _, hr, _, _, _, _, _, _ => by cases hr
  | .enm _ _, hr, _, _, _, _, _, _ => by cases hr

theorem payload_bufferable : ∀ (vs : Variants) (v : vs.Val), vs.bodiesBufferable = true →
    (vs.payload v).1.bufferable = true
  | .nil, v, _ => nomatch v
  | .cons _ t vs, v, h => by
    simp only [Variants.bodiesBufferable, Bool.and_eq_true] at h
    cases v with
    | inl x => exact h.1
    | inr x => exact payload_bufferable vs x h.2

theorem internalJ_round_trip {tag : Name} {nt : NameTy} {vs : Variants}
    (hr : vs.records tag = true) (hb : vs.bodiesBufferable = true) (hok : vs.jsonOk = true)
    (hn : (Ty.enm nt vs).jsonNames = true) (henv : vs.envOk env) (v : vs.Val) (bs rest : Bytes)
    (he : encInternalJ env tag vs v = .ok bs) (hrest : NoNumber rest) :
    decInternalJ env flt tag nt vs (bs ++ rest) = .ok (v, rest) := by
  simp only [Ty.jsonNames, Bool.and_eq_true] at hn
  obtain ⟨hnd, hnt⟩ := namesOk_iff hn.1
  unfold encInternalJ at he
  rw [bodyEntriesJ_payload] at he
  obtain ⟨o, y, ho, hy, rfl⟩ := Enc.seq_eq_ok.mp he
  obtain ⟨y1, c, hy1, hc, rfl⟩ := Enc.seq_eq_ok.mp hy
  obtain ⟨a, y2, ha, hy2, rfl⟩ := Enc.seq_eq_ok.mp hy1
  obtain ⟨co, y3, hco, hy3, rfl⟩ := Enc.seq_eq_ok.mp hy2
  obtain ⟨b, s, hb', hs, rfl⟩ := Enc.seq_eq_ok.mp hy3
  cases ho; cases hc; cases hco
  obtain ⟨k, hk1, hk2⟩ := encNameK_doc ha
  obtain ⟨d, hd1, hd2, hd3⟩ := encNameV_doc hb'
  obtain ⟨l, h1, h2, h3⟩ := encEntriesJ_doc env tag (vs.payload v).1 (payload_record tag vs v hr)
    (payload_bufferable vs v hb) (payload_jsonOk vs v hok) (payload_envOk env vs v henv)
    (vs.payload v).2 s hs
  have hm : memberText (k, d) (a ++ (0x3A#8 :: b)) := by
    simp only [memberText]
    exact ⟨a, [], [], b, hk2, ws_nil, ws_nil, hd2, rfl⟩
  have htext : (Doc.obj ((k, d) :: l)).text ([0x7B#8] ++ (a ++ ([0x3A#8] ++ (b ++ s)) ++ [0x7D#8])) := by
    simp only [Doc.text, memberTexts]
    refine ⟨_, after_consI (first := true) rfl hm h1, ?_⟩
    simp
  have hsm : (Doc.obj ((k, d) :: l)).small := by
    simp only [Doc.small, smallMembers, smallMember]; exact ⟨hd3, h2⟩
  exact ((internalJ_doc flt env hnd _ hsm [] _ rest ws_nil htext hrest).2 [] k d l _ rfl (by simp) hk1 hd1
    (hnt _ (nameOf_mem vs v))).2 v rfl (payload_jsonNames vs v hn.2) (h3 k d hk1)

end
end Musli.Json
