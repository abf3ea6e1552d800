import Verif.Proofs.Value.JsonEncode
import Verif.Proofs.Value.JsonInj
import Verif.Props.Samples
/-!
# C69, C70: JSON as a `Value`, and decoding JSON through a buffer
-/
namespace Musli.Json
open Musli Spec

/-! ## C69: `json::from_slice::<Value<_>>` -/

/-- **C69.** However a document is written, it is read as the `Value` of the document, whose integers have the
narrowest type that holds them, and exactly its text is consumed. -/
theorem C69_document_as_value (flt : Bool → Parts 128 → BitVec 64) (d : Doc) (hd : d.small)
    (ws x rest : Bytes) (hw : Ws ws) (hx : d.text x) (hr : NoNumber rest) :
    readValue flt (ws ++ (x ++ rest)) = .ok (d.toValue, rest) := readValue_text flt d hd x hx ws hw rest hr

/-- **C69.** Texts of different documents are read as different values. -/
theorem C69_values_differ (d e : Doc) (hd : d.small) (he : e.small) (h : d.toValue = e.toValue) :
    d = e := toValue_inj d hd e he h

/-- **C69.** So a text is a text of one document only. -/
theorem C69_one_document (d e : Doc) (hd : d.small) (he : e.small) (x : Bytes) (hx : d.text x)
    (hy : e.text x) : d = e := by
  have h1 := readValue_text (fun _ _ => 0) d hd x hx [] (fun _ h => nomatch h) [] (fun _ _ h => nomatch h)
  have h2 := readValue_text (fun _ _ => 0) e he x hy [] (fun _ h => nomatch h) [] (fun _ _ h => nomatch h)
  rw [h1] at h2
  exact toValue_inj d hd e he (by injection h2 with h2; injection h2)

/-- `[null, -5, 300, {"é": ""}]`. -/
def sampleDoc : Doc :=
  .arr [.null, .num true 5, .num false 300, .obj [(⟨utf8% "é", by decide⟩, .str ⟨[], by decide⟩)]]

example : sampleDoc.small := by
  simp only [sampleDoc, Doc.small, smalls, smallMembers, smallMember]; decide
example : sampleDoc.toValue = .seq [.unit, .number (.sint .w8 (-5)), .number (.uint .w16 300),
    .map [(.string ⟨utf8% "é", by decide⟩, .string ⟨[], by decide⟩)]] := rfl
/-- Written in two ways. -/
example : (readValue (fun _ _ => 0) (utf8% "[null,-5,300,{\"é\":\"\"}] 1")).toOption.map Prod.snd = some (utf8% " 1") ∧
    (readValue (fun _ _ => 0) (utf8% " [ null , -5,\n300, { \"\\u00e9\" : \"\" } ]")).toOption.map Prod.snd = some [] := by
  decide

/-! ## C70: decoding through a buffer -/

section
variable [Host] (flt : Bool → Parts 128 → BitVec 64) (env : Env)

/-- **C70**, the full statement: what `json::encode` produced can be decoded through
`decode_buffer`, if it can be decoded at all. -/
def C70Full : Prop := ∀ (t : Ty) (v : t.Val) (bs rest : Bytes), t.jsonOk = true → t.jsonNames = true →
  t.envOk env → encode env t v = .ok bs → NoNumber rest →
    decBuffered flt env t (bs ++ rest) = .ok (v, rest)

/-- **C70 (partial).** Every text of a document that represents a value is decoded as the value:
whatever the whitespace, the escapes, the order of the fields and the unknown fields. -/
theorem C70_any_text_partial (t : Ty) (hn : t.jsonNames = true) (v : t.Val) (d : Doc)
    (hv : DocOf env t v d) (hd : d.small) (ws x rest : Bytes) (hw : Ws ws) (hx : d.text x)
    (hr : NoNumber rest) : decBuffered flt env t (ws ++ (x ++ rest)) = .ok (v, rest) := by
  unfold decBuffered
  rw [P.bind_ok (readValue_text flt d hd x hx ws hw rest hr)]
  unfold fromValue
  rw [decV_doc (o := bufferOptions) (by decide) env t hn false v d hd hv]
  rfl

/-- **C70 (partial).** What was encoded is decoded through a buffer, if the type has no floats, `char`,
bytes, options, results, packed structs or enums with data. -/
theorem C70_round_trip_partial (t : Ty) (hb : t.bufferable = true) (hok : t.jsonOk = true)
    (hn : t.jsonNames = true) (henv : t.envOk env) (v : t.Val) (bs rest : Bytes)
    (he : encode env t v = .ok bs) (hr : NoNumber rest) :
    decBuffered flt env t (bs ++ rest) = .ok (v, rest) := by
  obtain ⟨d, h1, h2, h3⟩ := encJ_doc env t hb hok henv v bs he
  exact C70_any_text_partial flt env t hn v d h1 h3 [] bs rest (fun _ h => nomatch h) h2 hr

/-- **C70.** The rest can never be decoded through a buffer: there is no document from which an option, a
`char`, bytes, a byte array, a result, a packed struct or an enum with data can be decoded. -/
theorem C70_never_partial (t : Ty)
    (ht : (∃ u, t = .option u) ∨ t = .prim .char ∨ t = .bytes ∨ (∃ n, t = .byteArray n) ∨
      (∃ n u w, t = .result n u w) ∨ (∃ k fs, t = .packed k fs) ∨ (∃ k vs, t = .enm k vs))
    (d : Doc) (hd : d.small) (ws x rest : Bytes) (hw : Ws ws) (hx : d.text x) (hr : NoNumber rest) :
    ∃ e, decBuffered flt env t (ws ++ (x ++ rest)) = .error e := by
  unfold decBuffered
  rw [P.bind_ok (readValue_text flt d hd x hx ws hw rest hr)]
  suffices h : ∃ e, fromValue bufferOptions env t d.toValue = .error e by
    obtain ⟨e, h⟩ := h
    rw [h]
    exact ⟨_, rfl⟩
  unfold fromValue
  rcases ht with ⟨u, rfl⟩ | rfl | rfl | ⟨n, rfl⟩ | ⟨n, u, w, rfl⟩ | ⟨k, fs, rfl⟩ | ⟨k, vs, rfl⟩ <;>
    cases d <;> simp only [Doc.toValue, decV] <;> exact ⟨_, rfl⟩

end

section
open Sample
attribute [local instance] Sample.host

/-- `struct { name: String, tags: Vec<(i16, bool)>, ids: BTreeMap<i32, ()> }` -/
def plain : Ty := .strct .str
  (.cons (str (utf8% "name")) none none .string
  (.cons (str (utf8% "tags")) none none
    (.vec (.tuple (.cons (.prim (.sint .w16)) (.cons (.prim .bool) .nil))))
  (.cons (str (utf8% "ids")) none none (.map (.prim (.sint .w32)) .unit) .nil)))

@[inherit_doc plain]
def plainVal : plain.Val :=
  (⟨utf8% "é\n", by decide⟩, [((-2 : BitVec 16), true, ())], [((-7 : BitVec 32), ())], ())

example : plain.bufferable = true ∧ plain.jsonOk = true ∧ plain.jsonNames = true ∧ plain.envOk env :=
  ⟨by decide, by decide, by decide, by
    simp only [plain, Ty.envOk, Fields.envOk, Tys.envOk, and_true]⟩
example : encode env plain plainVal =
    .ok (utf8% "{\"name\":\"é\\n\",\"tags\":[[-2,true]],\"ids\":{\"-7\":null}}") := by decide +kernel
example : decBuffered (fun _ _ => 0) env plain
    (utf8% " {\"ids\":{\"-7\":null}, \"x\": 1.5, \"tags\":[[-2,true]], \"name\":\"\\u00e9\\n\"}") =
    .ok (plainVal, []) := rfl

/-- `Some(5u8)` can be decoded from JSON, but not through a buffer, and neither can `None`. An internally tagged
enum with an optional field can therefore not be decoded from JSON. -/
theorem C70_violated_option :
    encode env (.option (.prim (.uint .w8))) (some 5#8) = .ok (utf8% "5") ∧
    decode true env (.option (.prim (.uint .w8))) (utf8% "5") = .ok (some 5#8, []) ∧
    decBuffered (fun _ _ => 0) env (.option (.prim (.uint .w8))) (utf8% "5") = .error (.invalid, []) ∧
    encode env (.option (.prim (.uint .w8))) none = .ok (utf8% "null") ∧
    decBuffered (fun _ _ => 0) env (.option (.prim (.uint .w8))) (utf8% "null") = .error (.invalid, []) := by
  refine ⟨?_, ?_, ?_, ?_, ?_⟩ <;> decide +kernel

/-- Nor a `char`, bytes, or an enum with data. -/
theorem C70_violated_char_bytes_enum :
    encode env (.prim .char) 'a' = .ok (utf8% "\"a\"") ∧
    decBuffered (fun _ _ => 0) env (.prim .char) (utf8% "\"a\"") = .error (.invalid, []) ∧
    encode env .bytes [1, 2] = .ok (utf8% "[1,2]") ∧
    decBuffered (fun _ _ => 0) env .bytes (utf8% "[1,2]") = .error (.invalid, []) ∧
    encode env level (.inr (.inl (300#64, ()))) = .ok (utf8% "{\"High\":{\"x\":300}}") ∧
    decBuffered (fun _ _ => 0) env level (utf8% "{\"High\":{\"x\":300}}") = .error (.invalid, []) := by
  refine ⟨?_, ?_, ?_, ?_, ?_, ?_⟩ <;> first | decide +kernel | rfl

@[inherit_doc C70Full]
theorem C70_full_statement_false : ¬C70Full (fun _ _ => 0) env := by
  intro h
  have := h (.option (.prim (.uint .w8))) (some 5#8) (utf8% "5") [] (by decide) (by decide) trivial
    C70_violated_option.1 (fun _ _ h => nomatch h)
  rw [List.append_nil, C70_violated_option.2.2.1] at this
  cases this

end

end Musli.Json
