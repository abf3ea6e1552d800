import Verif.Proofs.Serde.JsonDoc
import Verif.Proofs.Serde.JsonSame
import Verif.Props.Json
import Verif.Props.Serde
import Verif.Props.SerdeAny
/-!
# C119: serde types in JSON; C112 in JSON
-/
namespace Musli
open Musli.Json Musli.Json.Spec

/-! ## C119: what is written -/

/-- **C119.** What the bridge writes is a text for the document which the data stands for, and JSON in UTF-8. -/
theorem C119_document (d : Serde.SData) (bs : Bytes) (he : Serde.Json.serJ d = .ok bs) :
    (∃ doc, d.Is doc ∧ doc.text bs) ∧ IsValue bs ∧ Utf8.valid bs = true := by
  obtain ⟨doc, h1, h2, _⟩ := Serde.Json.serJ_doc d bs he
  exact ⟨⟨doc, h1, h2⟩, doc_isValue doc bs h2, valid_text (doc_isValue doc bs h2)⟩

/-- **C119.** It is written exactly if the length of maps is announced, keys are integers or strings (floats aside). -/
theorem C119_writes_iff (d : Serde.SData) :
    (∃ bs, Serde.Json.serJ d = .ok bs) ↔ d.writable = true := Serde.Json.written_iff d

/-! ## C119: what is read -/

section
variable (full : Bool) (env : Env)

/-- **C119.** Every JSON text for a value of a serde type is read as that value, and what follows is not touched:
whitespace, escapes, the order of fields and fields of other names make no difference. (A float directly follows
the colon: `Lead`, C86.) -/
theorem C119_reads_any_text (t : Ty) (hn : Serde.names t = true) (v : t.Val) (ws x rest : Bytes)
    (hw : Lead t ws) (hx : Serde.SText env t v x) (hr : NoNumber rest) :
    Serde.Json.decode full env t (ws ++ (x ++ rest)) = .ok (v, rest) :=
  Serde.Json.deJ_text full env t hn v x hx ws hw rest hr

theorem serde_json_text (t : Ty) (hn : Serde.names t = true) (hc : Serde.clearNull t = true)
    (henv : Serde.envOk env t) (v : t.Val) (bs : Bytes) (he : Serde.Json.encode env t v = .ok bs) :
    Serde.SText env t v bs := by
  unfold Serde.Json.encode at he
  cases hd : Serde.dataOf env t v with
  | none => rw [hd] at he; cases he
  | some d => rw [hd] at he; exact Serde.Json.serJ_text env t hn hc henv v d bs hd he

/-- **C119.** What a serde type serializes into JSON is a text for its value. -/
theorem C119_writes_a_text_partial (t : Ty) (hn : Serde.names t = true) (hc : Serde.clearNull t = true)
    (henv : Serde.envOk env t) (v : t.Val) (bs : Bytes) (he : Serde.Json.encode env t v = .ok bs) :
    Serde.SText env t v bs := serde_json_text env t hn hc henv v bs he

/-- **C119 (partial).** What a serde type serializes into JSON, the same type deserializes. Missing: options of
what can itself be `null`. -/
theorem C119_round_trip_partial (t : Ty) (hn : Serde.names t = true) (hc : Serde.clearNull t = true)
    (henv : Serde.envOk env t) (v : t.Val) (bs rest : Bytes) (he : Serde.Json.encode env t v = .ok bs)
    (hr : NoNumber rest) : Serde.Json.decode full env t (bs ++ rest) = .ok (v, rest) :=
  C119_reads_any_text full env t hn v [] bs rest lead_nil
    (serde_json_text env t hn hc henv v bs he) hr

/-- **C119 (partial).** So two values are never written the same way. -/
theorem C119_unambiguous_partial (t : Ty) (hn : Serde.names t = true) (hc : Serde.clearNull t = true)
    (henv : Serde.envOk env t) (v w : t.Val) (bs : Bytes) (hv : Serde.Json.encode env t v = .ok bs)
    (hw : Serde.Json.encode env t w = .ok bs) : v = w := by
  have h1 := C119_round_trip_partial true env t hn hc henv v bs [] hv (fun _ _ h => nomatch h)
  have h2 := C119_round_trip_partial true env t hn hc henv w bs [] hw (fun _ _ h => nomatch h)
  rw [h1] at h2
  cases h2
  rfl

/-! ## C119: Müsli's own derive -/

/-- **C119 (partial).** A type with both derives whose names are strings has the same JSON from both. Missing: unit
structs, and enums all variants of which are units, for which it is false. (`usize` is left out as for
the other formats.) -/
theorem C119_same_json_partial (t : Ty) (hc : Serde.compat t = true) (v : t.Val) (bs : Bytes)
    (he : Serde.Json.encode env t v = .ok bs) : Musli.Json.encode env t v = .ok bs := by
  unfold Serde.Json.encode at he
  cases hd : Serde.dataOf env t v with
  | none => rw [hd] at he; cases he
  | some d =>
    rw [hd] at he
    rw [← he]
    exact (Serde.Json.serJ_same env t hc v d hd).symm

/-- **C119 (partial).** And then Müsli's derive reads what serde wrote. -/
theorem C119_musli_reads_serde_partial (t : Ty) (hc : Serde.compat t = true) (hok : t.jsonOk = true)
    (hn : t.jsonNames = true) (henv : t.envOk env) (v : t.Val) (bs rest : Bytes)
    (he : Serde.Json.encode env t v = .ok bs) (hr : NoNumber rest) :
    Musli.Json.decode full env t (bs ++ rest) = .ok (v, rest) :=
  C30_round_trip full env t hok hn henv v bs rest (C119_same_json_partial env t hc v bs he) hr

/-- **C119**, the full statement: round trip and the same JSON from both derives. -/
def C119Full : Prop := ∀ (full : Bool) (env : Env) (t : Ty), Serde.names t = true → Serde.envOk env t →
  ∀ (v : t.Val) (bs rest : Bytes), Serde.Json.encode env t v = .ok bs → NoNumber rest →
    Serde.Json.decode full env t (bs ++ rest) = .ok (v, rest) ∧ Musli.Json.encode env t v = .ok bs

end

/-! ## C112 in JSON -/

/-- **C112**, JSON. Whatever JSON text is there, `deserialize_any` shows its content and leaves the reader behind
it. -/
theorem C112_json_shows_text (flt : Bool → Parts 128 → BitVec 64) (doc : Doc) (hs : doc.small)
    (ws x rest : Bytes) (hw : Ws ws) (hx : doc.text x) (hr : NoNumber rest) :
    ∃ seen, Serde.Json.deserializeAnyJ flt (ws ++ (x ++ rest)) = .ok (seen, rest) ∧
      seen.plain = Serde.docPlain doc :=
  ⟨_, Serde.Json.deserializeAnyJ_text flt doc hs x hx ws hw rest hr, Serde.Json.toSeen_plain doc hs⟩

/-- **C112**, JSON. Whatever was serialized, `deserialize_any` shows the document it stands for; variants of enums
as well. -/
theorem C112_json_any (flt : Bool → Parts 128 → BitVec 64) (d : Serde.SData) (bs rest : Bytes)
    (he : Serde.Json.serJ d = .ok bs) (hr : NoNumber rest) :
    ∃ doc seen, d.Is doc ∧ Serde.Json.deserializeAnyJ flt (bs ++ rest) = .ok (seen, rest) ∧
      seen.plain = Serde.docPlain doc := by
  obtain ⟨doc, h1, h2, h3⟩ := Serde.Json.serJ_doc d bs he
  obtain ⟨seen, h4, h5⟩ := C112_json_shows_text flt doc h3 [] bs rest (fun _ h => nomatch h) h2 hr
  exact ⟨doc, seen, h1, h4, h5⟩

/-- **C112 (partial)**, JSON. Data without floats, characters, bytes and options, whose keys are strings, is shown
as it is, with all variants. Missing: JSON cannot tell a character from a string, bytes from an array, `Some` from what
is in it. -/
theorem C112_json_kept_partial (flt : Bool → Parts 128 → BitVec 64) (d : Serde.SData) (hk : d.kept = true)
    (bs rest : Bytes) (he : Serde.Json.serJ d = .ok bs) (hr : NoNumber rest) :
    ∃ seen, Serde.Json.deserializeAnyJ flt (bs ++ rest) = .ok (seen, rest) ∧ seen.plain = d.plain := by
  obtain ⟨doc, seen, h1, h2, h3⟩ := C112_json_any flt d bs rest he hr
  exact ⟨seen, h2, h3.trans (Serde.Json.kept_plain d doc hk h1)⟩

/-! ## Examples -/

section
open Sample

/-- An order as before, with a map in the place of the prices. -/
def Sample.jsonOrder : Ty := .strct .str
  (.cons (str (utf8% "id")) none none (.prim (.uint .w64))
  (.cons (str (utf8% "note")) none (some 0) (.option .string)
  (.cons (str (utf8% "lines")) none none (.map (.prim (.sint .w16)) (.array 2 .bytes))
  (.cons (str (utf8% "states")) none none (.vec state)
  (.cons (str (utf8% "unit")) none none (.unitEnum .str [str (utf8% "A"), str (utf8% "é")]) .nil)))))

@[inherit_doc jsonOrder]
def Sample.jsonOrder7 : jsonOrder.Val :=
  (7#64, none, [(BitVec.ofInt 16 (-3), ⟨[[1, 255], []], rfl⟩)],
    [.inr (.inl 300#32), .inl (⟨utf8% "\"é", by decide⟩, ())], 1, ())

theorem Sample.jsonOrder_envOk : Serde.envOk env jsonOrder := by
  simp only [jsonOrder, state, Serde.envOk, Serde.envOkFields, Serde.envOkVariants, and_true, true_and]
  refine ⟨fun k h => by simp at h, ?_⟩
  refine ⟨?_, ⟨fun k h => by simp at h, ⟨fun k h => by simp at h, ⟨fun k h => by simp at h, fun k h => by simp at h⟩⟩⟩⟩
  intro k _ v hv
  cases v with
  | none => exact .option _
  | some v => cases hv

-- the hypotheses of C119
example : Serde.names jsonOrder = true ∧ Serde.clearNull jsonOrder = true ∧ Serde.envOk env jsonOrder :=
  ⟨by decide, by decide, jsonOrder_envOk⟩
set_option maxRecDepth 8000 in
example : Serde.Json.encode env jsonOrder jsonOrder7 = .ok (utf8%
    "{\"id\":7,\"lines\":{\"-3\":[[1,255],[]]},\"states\":[{\"Paid\":300},{\"Open\":{\"by\":\"\\\"é\"}}],\"unit\":{\"é\":null}}") := by
  decide +kernel
set_option maxRecDepth 8000 in
/-- Another text for it: reordered, with unknown fields, other elements at the end of an array. -/
example : Serde.Json.decode true env jsonOrder (utf8%
    " {\"unit\" : {\"\\u00e9\":[]},\"x\":[{}],\"states\":[{\"Paid\":300},{\"Open\":{\"by\":\"\\\"é\",\"q\":1}}],\"lines\":{\"-3\":[[1,255],[],true]},\"id\":7}]")
    = .ok (jsonOrder7, utf8% "]") := rfl
/-- Unlike Müsli, serde refuses a field which comes twice. -/
example : ∃ s, Serde.Json.decode true env (.strct .str (.cons (str (utf8% "a")) none none (.prim .bool) .nil))
    (utf8% "{\"a\":true,\"a\":true}") = .error (.invalid, s) := ⟨_, rfl⟩
example : Serde.compat (.vec state) = true ∧ (Ty.vec state).jsonOk = true ∧ (Ty.vec state).jsonNames = true := by
  decide +kernel

/-- A map whose keys are maps is not written, nor is one of unknown length. -/
example : Serde.Json.serJ (.map true [(.map true [], .unit)]) = .error .unsupported ∧
    Serde.Json.serJ (.map false []) = .error .unsupported ∧
    Serde.Json.serJ (.seq false [.unit]) = .ok (utf8% "[null]") := ⟨rfl, rfl, rfl⟩

/-- **C119** fails for `Option<()>`: `Some(())` is `null`, which is `None`. -/
theorem C119_violated_option_unit :
    Serde.Json.encode env (.option .unit) (some ()) = .ok (utf8% "null") ∧
    Serde.Json.decode true env (.option .unit) (utf8% "null") = .ok (none, []) := ⟨rfl, rfl⟩

/-- **C119** fails for unit structs: `null` from serde, `{}` from Müsli, which does not read `null`. -/
theorem C119_violated_unit_struct :
    Serde.Json.encode env .unitStruct () = .ok (utf8% "null") ∧
    Musli.Json.encode env .unitStruct () = .ok (utf8% "{}") ∧
    (∃ e, Musli.Json.decode true env .unitStruct (utf8% "null") = .error e) := ⟨rfl, rfl, _, rfl⟩

/-- **C119** fails for the variants of an enum of units: `{"A":null}` from serde, `"A"` from Müsli. Neither
reads the other's. -/
theorem C119_violated_unit_variant :
    let t : Ty := .unitEnum .str [str (utf8% "A")]
    Serde.Json.encode env t 0 = .ok (utf8% "{\"A\":null}") ∧
    Musli.Json.encode env t 0 = .ok (utf8% "\"A\"") ∧
    (∃ e, Musli.Json.decode true env t (utf8% "{\"A\":null}") = .error e) ∧
    (∃ e, Serde.Json.decode true env t (utf8% "\"A\"") = .error e) := ⟨rfl, rfl, ⟨_, rfl⟩, ⟨_, rfl⟩⟩

@[inherit_doc C119Full]
theorem C119_full_statement_false : ¬C119Full := by
  intro h
  have h1 := (h true env (.option .unit) rfl (by simp only [Serde.envOk]) (some ()) _ []
    C119_violated_option_unit.1 (fun _ _ h => nomatch h)).1
  rw [List.append_nil, C119_violated_option_unit.2] at h1
  exact nomatch h1

/-- A struct with a struct variant, a map and large integers: all of it is kept. -/
def Sample.keptSample : Serde.SData :=
  .struct [(⟨utf8% "id", by decide⟩, .uint .w128 0x10000000000000000#128),
    (⟨utf8% "é", by decide⟩, .structVariant ⟨utf8% "V", by decide⟩ [(⟨utf8% "x", by decide⟩, .sint .w8 (-5))]),
    (⟨utf8% "m", by decide⟩, .map true [(.str ⟨utf8% "k", by decide⟩, .tuple [.unit, .bool true])])]

example : keptSample.kept = true ∧ Serde.Json.serJ keptSample = .ok (utf8%
    "{\"id\":18446744073709551616,\"é\":{\"V\":{\"x\":-5}},\"m\":{\"k\":[null,true]}}") := by decide +kernel
example : ∃ d bs, d = Serde.SData.some (.char 'a') ∧ d.kept = false ∧
    Serde.Json.serJ d = .ok bs ∧ bs = utf8% "\"a\"" := ⟨_, _, rfl, rfl, rfl, rfl⟩

end

end Musli
