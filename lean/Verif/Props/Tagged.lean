import Verif.Proofs.Json.Internal
import Verif.Props.Samples
/-!
# C71 - C76: enums that are not tagged by a variant
-/
namespace Musli

namespace Sample

/-- ```
enum Shape { Low, High { x: u64 } }
``` -/
def shape : Variants :=
  .cons (str (utf8% "Low")) .unitStruct
  (.cons (str (utf8% "High"))
    (.strct .str (.cons (str (utf8% "x")) none none (.prim (.uint .w64)) .nil)) .nil)

/-- `High { x: 300 }`. -/
def high : shape.Val := .inr (.inl (300#64, ()))

/-- The same with numbers for names. -/
def shapeIdx : Variants :=
  .cons (.idx 0) .unitStruct
  (.cons (.idx 1) (.strct .idx (.cons (.idx 0) none none (.prim (.uint .w64)) .nil)) .nil)

/-- `High { x: 300 }`. -/
def highIdx : shapeIdx.Val := .inr (.inl (300#64, ()))

/-- `"type"`. -/
def type : Name := str (utf8% "type")
/-- `"data"`. -/
def data : Name := str (utf8% "data")

theorem shape_envOk : shape.envOk env := by
  simp only [shape, Ty.envOk, Fields.envOk, Variants.envOk, and_true]
theorem shapeIdx_envOk : shapeIdx.envOk env := by
  simp only [shapeIdx, Ty.envOk, Fields.envOk, Variants.envOk, and_true]

end Sample

/-! ## C71: `#[musli(tag = .., content = ..)]` -/

section
variable [Host] (o : Options) (env : Env)

/-- **C71**, the full statement: what was encoded is decoded, in every binary format, if the type is one which can be
decoded as a plain enum and the names of tag and content are of the same kind and differ. -/
def C71Full : Prop := ∀ (m : Mode) (tag content : Name) (nt : NameTy) (vs : Variants) (v : vs.Val) (bs rest : Bytes),
  Supported o m (.enm nt vs) = true → vs.envOk env → content.ty = tag.ty → content ≠ tag →
  encAdjacent o env tag content vs m v = .ok bs →
  decAdjacent o env tag content nt vs m (bs ++ rest) = .ok (v, rest)

/-- **C71 (partial).** It holds if the byte order is that of the machine, or tag and variants are named by
strings, or the format copies nothing bitwise (`TagOrder`). -/
theorem C71_round_trip_partial {m : Mode} {tag content : Name} {nt : NameTy} {vs : Variants}
    (hok : Supported o m (.enm nt vs) = true) (henv : vs.envOk env)
    (hty : content.ty = tag.ty) (hne : content ≠ tag) (hord : TagOrder o m tag nt)
    (v : vs.Val) (bs rest : Bytes) (he : encAdjacent o env tag content vs m v = .ok bs) :
    decAdjacent o env tag content nt vs m (bs ++ rest) = .ok (v, rest) :=
  adjacent_round_trip o env hok henv hty hne hord v bs rest he

/-- **C71.** In wire and descriptive it always holds. -/
theorem C71_round_trip_wire_descriptive {m : Mode} (hm : m = .wire ∨ m = .descriptive) {tag content : Name}
    {nt : NameTy} {vs : Variants} (hok : Supported o m (.enm nt vs) = true) (henv : vs.envOk env)
    (hty : content.ty = tag.ty) (hne : content ≠ tag)
    (v : vs.Val) (bs rest : Bytes) (he : encAdjacent o env tag content vs m v = .ok bs) :
    decAdjacent o env tag content nt vs m (bs ++ rest) = .ok (v, rest) :=
  adjacent_round_trip o env hok henv hty hne
    (by intro h; rcases hm with rfl | rfl <;> cases h) v bs rest he

/-- **C71 (partial).** Different values have different encodings, none of which is the beginning of another. -/
theorem C71_prefix_free_partial {m : Mode} {tag content : Name} {nt : NameTy} {vs : Variants}
    (hok : Supported o m (.enm nt vs) = true) (henv : vs.envOk env)
    (hty : content.ty = tag.ty) (hne : content ≠ tag) (hord : TagOrder o m tag nt)
    (v w : vs.Val) (a b rest : Bytes) (ha : encAdjacent o env tag content vs m v = .ok a)
    (hb : encAdjacent o env tag content vs m w = .ok b) (hab : b = a ++ rest) : v = w ∧ rest = [] := by
  have h1 := adjacent_round_trip o env hok henv hty hne hord v a rest ha
  have h2 := adjacent_round_trip o env hok henv hty hne hord w b [] hb
  rw [List.append_nil, hab, h1] at h2
  injection h2 with h2
  injection h2 with h2 h3
  exact ⟨h2, h3⟩

end

section
variable (full : Bool) (env : Env)
open Json Json.Spec

/-- **C71.** JSON. -/
theorem C71_round_trip_json {tag content : Name} {nt : NameTy} {vs : Variants}
    (hok : (Ty.enm nt vs).jsonOk = true) (hn : (Ty.enm nt vs).jsonNames = true) (henv : vs.envOk env)
    (hty : content.ty = tag.ty) (hne : content ≠ tag)
    (v : vs.Val) (bs rest : Bytes) (he : encAdjacentJ env tag content vs v = .ok bs) :
    decAdjacentJ env full tag content nt vs (bs ++ rest) = .ok (v, rest) := by
  have htext := encAdjacentJ_text env hok hn henv v bs he
  simp only [Ty.jsonNames, Bool.and_eq_true] at hn
  obtain ⟨_, hnt⟩ := namesOk_iff hn.1
  refine (adjacentJ_doc full env (nt := nt) (by simp only [Ty.jsonNames, Bool.and_eq_true]; exact hn) hty hne
    [.inl (vs.nameOf v)] 0 ?_ (by simp) _ _ [] bs rest (fun _ h => nomatch h) htext).2.2 v rfl rfl
  intro n h
  rw [List.mem_singleton] at h
  cases h
  exact hnt _ (nameOf_mem vs v)

end

section
open Sample
attribute [local instance] Sample.host

example : Supported fixedBig .storage (.enm .str shape) = true ∧ shape.envOk env ∧ data.ty = type.ty ∧ data ≠ type ∧
    TagOrder fixedBig .storage type .str :=
  ⟨by decide, shape_envOk, rfl, by decide, fun _ => .inr ⟨rfl, rfl⟩⟩
example : Supported nativeOpts .packed (.enm .idx shapeIdx) = true ∧ TagOrder nativeOpts .packed (.idx 7) .idx :=
  ⟨by decide, fun _ => .inl (by decide)⟩
example : (encAdjacent varOpts env type data shape .wire high).isOk = true := by decide
example : encAdjacent varOpts env (.idx 7) (.idx 8) shapeIdx .storage highIdx =
    .ok [2, 7, 1, 8, 1, 0, 0xAC, 0x02] := by decide
example : (Ty.enm .str shape).jsonOk = true ∧ (Ty.enm .str shape).jsonNames = true := by decide
example : Json.encAdjacentJ env type data shape high =
    .ok (utf8% "{\"type\":\"High\",\"data\":{\"x\":300}}") := by decide +kernel

/-- With fixed width numbers and big endian order on a little endian machine, the tag `7` and the
variant `1` are written in little endian order, and the content `8` in big endian order. The
decoder cannot find the tag. -/
theorem C71_violated_order :
    encAdjacent fixedBig env (.idx 7) (.idx 8) shapeIdx .storage highIdx =
      .ok ([0, 0, 0, 0, 0, 0, 0, 2] ++ [7, 0, 0, 0, 0, 0, 0, 0] ++ [1, 0, 0, 0, 0, 0, 0, 0] ++ [0, 0, 0, 0, 0, 0, 0, 8] ++
        [0, 0, 0, 0, 0, 0, 0, 1] ++ [0, 0, 0, 0, 0, 0, 0, 0] ++ [0, 0, 0, 0, 0, 0, 1, 44]) ∧
    (decAdjacent fixedBig env (.idx 7) (.idx 8) .idx shapeIdx .storage
      ([0, 0, 0, 0, 0, 0, 0, 2] ++ [7, 0, 0, 0, 0, 0, 0, 0] ++ [1, 0, 0, 0, 0, 0, 0, 0] ++ [0, 0, 0, 0, 0, 0, 0, 8] ++
        [0, 0, 0, 0, 0, 0, 0, 1] ++ [0, 0, 0, 0, 0, 0, 0, 0] ++ [0, 0, 0, 0, 0, 0, 1, 44])).isOk = false := by
  decide

@[inherit_doc C71Full]
theorem C71_full_statement_false : ¬C71Full fixedBig env := by
  intro h
  have := h .storage (.idx 7) (.idx 8) .idx shapeIdx highIdx _ [] (by decide) shapeIdx_envOk rfl (by decide)
    C71_violated_order.1
  have h2 := C71_violated_order.2
  rw [← List.append_nil (_ ++ _), this] at h2
  cases h2

end

/-! ## C72: documents for adjacently tagged enums -/

section
variable [Host] (o : Options) (env : Env)

/-- **C72.** Wire and descriptive: before the content, the tag may occur several times, together with any
unknown entries; the last tag counts. Whatever follows the content is passed over. If there is no tag before the content, or the
variant is not known, decoding fails. (Entries must be ones that can be skipped, see C13.) -/
theorem C72_documents {m : Mode} (hm : m = .wire ∨ m = .descriptive) {tag content : Name} {nt : NameTy}
    {vs : Variants} (hok : Supported o m (.enm nt vs) = true) (henv : vs.envOk env)
    (hty : content.ty = tag.ty) (hne : content ≠ tag)
    (es : List (Heading Unknown)) (post : List Unknown) (ht : ∀ n, .inl n ∈ es → n.ty = nt)
    (hu : ∀ u, .inr u ∈ es → u.name ≠ tag ∧ u.name ≠ content ∧ u.name.ty = tag.ty ∧ u.Skippable o m)
    (hp : ∀ u ∈ post, u.Skippable o m)
    (t : Ty) (x : t.Val) (bs rest : Bytes) (he : encAdjDoc o env m tag content es t x post = .ok bs) :
    (lastTag es = none → decAdjacent o env tag content nt vs m (bs ++ rest) = .error .missing) ∧
    (∀ n, lastTag es = some n → n ∉ vs.names →
      decAdjacent o env tag content nt vs m (bs ++ rest) = .error .unknown) ∧
    (∀ v, lastTag es = some (vs.nameOf v) → vs.payload v = ⟨t, x⟩ →
      decAdjacent o env tag content nt vs m (bs ++ rest) = .ok (v, rest)) := by
  rcases hm with rfl | rfl
  · by_cases hl : Opt.length o = .variable
    · exact adjacent_doc o env (m := .wire) (us := true) (Wire.skippable o true fun _ => hl) rfl
        (Wire.consumes_step o) (fun _ _ => rfl) hok henv hty hne es post ht
        (fun u h => ⟨(hu u h).1, (hu u h).2.1, (hu u h).2.2.1, .inl rfl, (hu u h).2.2.2.1⟩) (fun u h => ⟨(hp u h).1, .inl rfl⟩) t x bs rest he
    · have hs : ∀ u : Unknown, u.Skippable o .wire → u.name.ty = .str ∧ u.ty.noUsize = true := by
        rintro u ⟨_, h | h | h⟩
        · cases h
        · exact absurd h hl
        · exact h
      exact adjacent_doc o env (m := .wire) (us := false) (Wire.skippable o false (by simp)) rfl
        (Wire.consumes_step o) (fun _ _ => rfl) hok henv hty hne es post ht
        (fun u h => ⟨(hu u h).1, (hu u h).2.1, (hu u h).2.2.1, .inr (hs u (hu u h).2.2.2).2, (hu u h).2.2.2.1⟩)
        (fun u h => ⟨(hp u h).1, .inr (hs u (hp u h))⟩) t x bs rest he
  · exact adjacent_doc o env (m := .descriptive) (us := true) (Desc.skippable o) rfl
      (Desc.consumes_step o) (fun _ _ => rfl) hok henv hty hne es post ht
      (fun u h => ⟨(hu u h).1, (hu u h).2.1, (hu u h).2.2.1, .inl rfl, (hu u h).2.2.2.1⟩) (fun u h => ⟨(hp u h).1, .inl rfl⟩) t x bs rest he

end

section
variable (full : Bool) (env : Env)
open Json Json.Spec

/-- **C72.** JSON, in any text of the document. -/
theorem C72_documents_json {tag content : Name} {nt : NameTy} {vs : Variants}
    (hn : (Ty.enm nt vs).jsonNames = true) (hty : content.ty = tag.ty) (hne : content ≠ tag)
    (es : List (Heading Name)) (n : Nat) (ht : ∀ n, .inl n ∈ es → n.ty = nt)
    (hu : ∀ n, .inr n ∈ es → n ≠ tag ∧ n ≠ content ∧ n.ty = tag.ty)
    (t : Ty) (x : t.Val) (ws doc rest : Bytes) (hw : Ws ws)
    (hdoc : AdjText env tag content es t x n doc) :
    (lastTag es = none → ∃ s, decAdjacentJ env full tag content nt vs (ws ++ (doc ++ rest)) = .error (.missing, s)) ∧
    (∀ n, lastTag es = some n → n ∉ vs.names →
      ∃ s, decAdjacentJ env full tag content nt vs (ws ++ (doc ++ rest)) = .error (.unknown, s)) ∧
    (∀ v, lastTag es = some (vs.nameOf v) → vs.payload v = ⟨t, x⟩ →
      decAdjacentJ env full tag content nt vs (ws ++ (doc ++ rest)) = .ok (v, rest)) :=
  adjacentJ_doc full env hn hty hne es n ht hu t x ws doc rest hw hdoc

end

section
open Sample
attribute [local instance] Sample.host

/-- Another entry, the tag twice, the content, and one more entry. -/
def C72Sample : List (Heading Unknown) :=
  [.inr ⟨str (utf8% "extra"), person, bob⟩, .inl (str (utf8% "Low")), .inl (str (utf8% "High"))]

example : lastTag C72Sample = some (shape.nameOf high) := by decide
example : (encAdjDoc varOpts env .wire type data C72Sample (shape.payload high).1 (shape.payload high).2
    [⟨str (utf8% "more"), .string, ⟨utf8% "x", by decide⟩⟩]).isOk = true := by decide
example : Json.decAdjacentJ env true type data .str shape
    (utf8% "{\"extra\": [1, {}], \"type\": \"Low\", \"type\": \"\\u0048igh\", \"data\": {\"x\": 300}, \"more\": null} 1") =
    .ok (high, utf8% " 1") := by first | decide +kernel | rfl
example : (Json.decAdjacentJ env true type data .str shape
    (utf8% "{\"data\": {\"x\": 300}, \"type\": \"High\"}")).isOk = false := by first | decide +kernel | rfl
end

/-! ## C73: `#[musli(tag = ..)]` -/

section
variable [Host] (o : Options) (env : Env)

/-- **C73**, the full statement for the descriptive format: what was encoded is decoded, if the enum can be decoded as a plain
enum. -/
def C73Full : Prop := ∀ (tag : Name) (nt : NameTy) (vs : Variants) (v : vs.Val) (bs rest : Bytes),
  Supported o .descriptive (.enm nt vs) = true → vs.envOk env →
  encInternal o env tag vs .descriptive v = .ok bs →
  decInternal o env tag nt vs (bs ++ rest) = .ok (v, rest)

/-- **C73 (partial).** It holds if the bodies are structs whose fields are named like the tag but differently
(`Ty.record`), and there are no packed structs (see C66). -/
theorem C73_round_trip_descriptive_partial {tag : Name} {nt : NameTy} {vs : Variants}
    (hn : namesOk nt vs.names = true) (hok : vs.bodiesOk false false .descriptive false = true) (henv : vs.envOk env)
    (hp : vs.unpacked = true) (hr : vs.records tag = true) (v : vs.Val) (bs rest : Bytes)
    (he : encInternal o env tag vs .descriptive v = .ok bs) :
    decInternal o env tag nt vs (bs ++ rest) = .ok (v, rest) :=
  internal_round_trip o env hn hok henv hp hr v bs rest he

/-- **C73**, the full statement for JSON. -/
def C73JsonFull (flt : Bool → Json.Parts 128 → BitVec 64) : Prop :=
  ∀ (tag : Name) (nt : NameTy) (vs : Variants) (v : vs.Val) (bs rest : Bytes),
  (Ty.enm nt vs).jsonOk = true → (Ty.enm nt vs).jsonNames = true → vs.envOk env →
  Json.encInternalJ env tag vs v = .ok bs → Json.Spec.NoNumber rest →
  Json.decInternalJ env flt tag nt vs (bs ++ rest) = .ok (v, rest)

open Json Json.Spec in
/-- **C73 (partial).** It holds if the bodies are structs whose fields are named like the tag but differently, and
can be decoded through a buffer, see C70: no floats, `char`, bytes, options, results, packed structs or enums with
data. -/
theorem C73_round_trip_json_partial (flt : Bool → Parts 128 → BitVec 64) {tag : Name} {nt : NameTy} {vs : Variants}
    (hr : vs.records tag = true) (hb : vs.bodiesBufferable = true) (hok : vs.jsonOk = true)
    (hn : (Ty.enm nt vs).jsonNames = true) (henv : vs.envOk env) (v : vs.Val) (bs rest : Bytes)
    (he : encInternalJ env tag vs v = .ok bs) (hrest : NoNumber rest) :
    decInternalJ env flt tag nt vs (bs ++ rest) = .ok (v, rest) :=
  internalJ_round_trip flt env hr hb hok hn henv v bs rest he hrest

end

section
open Sample
attribute [local instance] Sample.host

example : namesOk .str shape.names = true ∧ shape.bodiesOk false false .descriptive false = true ∧ shape.unpacked = true ∧
    shape.records type = true ∧ shape.bodiesBufferable = true := by decide
example : (encInternal varOpts env type shape .descriptive high).isOk = true := by decide
example : Json.encInternalJ env type shape high = .ok (utf8% "{\"type\":\"High\",\"x\":300}") := by decide +kernel

/-- A string as the tag with numbers for the fields, which is what `#[musli(tag = "type")]` gives in binary mode
without further attributes: the struct cannot read the tag as one of its field names. -/
theorem C73_violated_names :
    shapeIdx.records (.idx 7) = true ∧ shapeIdx.records type = false ∧
    (match encInternal varOpts env type shapeIdx .descriptive highIdx with
      | .ok bs => (decInternal varOpts env type .idx shapeIdx bs).isOk
      | .error _ => true) = false := by decide

/-- A field named like the tag: the name of the variant is taken for the field. -/
theorem C73_violated_clash :
    let vs : Variants := .cons (str (utf8% "A")) (.strct .str (.cons type none none (.prim (.uint .w8)) .nil)) .nil
    Json.encInternalJ env type vs (.inl (5#8, ())) = .ok (utf8% "{\"type\":\"A\",\"type\":5}") ∧
    (Json.decInternalJ env (fun _ _ => 0) type .str vs (utf8% "{\"type\":\"A\",\"type\":5}")).isOk = false := by
  refine ⟨?_, ?_⟩ <;> first | decide +kernel | rfl

/-- A transparent variant with a map: after decoding, the tag is an entry of the map. -/
theorem C73_violated_map :
    let vs : Variants := .cons (str (utf8% "A")) (.transparent (.map .string .string)) .nil
    let v : vs.Val := .inl [(⟨utf8% "k", by decide⟩, ⟨utf8% "v", by decide⟩)]
    let w : vs.Val := .inl [(⟨utf8% "type", by decide⟩, ⟨utf8% "A", by decide⟩),
      (⟨utf8% "k", by decide⟩, ⟨utf8% "v", by decide⟩)]
    Json.encInternalJ env type vs v = .ok (utf8% "{\"type\":\"A\",\"k\":\"v\"}") ∧
    Json.decInternalJ env (fun _ _ => 0) type .str vs (utf8% "{\"type\":\"A\",\"k\":\"v\"}") = .ok (w, []) := by
  refine ⟨?_, ?_⟩ <;> first | decide +kernel | rfl

/-- The same variant cannot be encoded in the descriptive format, nor can a struct in a box: there is no size
hint. -/
theorem C73_violated_encode :
    encInternal varOpts env type (.cons (str (utf8% "A")) (.transparent (.map .string .string)) .nil) .descriptive
      (.inl []) = .error .unsupported ∧
    encInternal varOpts env type (.cons (str (utf8% "A")) (.transparent (.boxed .unitStruct)) .nil) .descriptive
      (.inl ()) = .error .unsupported := ⟨rfl, rfl⟩

/-- An optional field, in JSON. -/
theorem C73_violated_option :
    let vs : Variants := .cons (str (utf8% "A"))
      (.strct .str (.cons (str (utf8% "x")) none none (.option (.prim (.uint .w8))) .nil)) .nil
    Json.encInternalJ env type vs (.inl (some 5#8, ())) = .ok (utf8% "{\"type\":\"A\",\"x\":5}") ∧
    (Json.decInternalJ env (fun _ _ => 0) type .str vs (utf8% "{\"type\":\"A\",\"x\":5}")).isOk = false := by
  refine ⟨?_, ?_⟩ <;> first | decide +kernel | rfl

@[inherit_doc C73Full]
theorem C73_full_statement_false : ¬C73Full varOpts env := by
  intro h
  have h1 := C73_violated_names.2.2
  cases he : encInternal varOpts env type shapeIdx .descriptive highIdx with
  | error e => rw [he] at h1; cases h1
  | ok bs =>
    rw [he] at h1
    dsimp only at h1
    have := h type .idx shapeIdx highIdx bs [] (by decide) shapeIdx_envOk he
    rw [List.append_nil] at this
    rw [this] at h1
    cases h1

@[inherit_doc C73JsonFull]
theorem C73_json_full_statement_false : ¬C73JsonFull env (fun _ _ => 0) := by
  intro h
  have := h type .str (.cons (str (utf8% "A"))
    (.strct .str (.cons (str (utf8% "x")) none none (.option (.prim (.uint .w8))) .nil)) .nil)
    (.inl (some 5#8, ())) _ [] (by decide) (by decide)
    (by simp only [Ty.envOk, Fields.envOk, Variants.envOk, and_true]) C73_violated_option.1 (fun _ _ h => nomatch h)
  have h2 := C73_violated_option.2
  rw [List.append_nil] at this
  rw [this] at h2
  cases h2

end

/-! ## C74: documents for internally tagged enums -/

section
variable [Host] (o : Options) (env : Env)

/-- **C74.** Descriptive: the tag may be anywhere among the entries for the fields, which can be in any order and repeated, and
unknown entries of any type that can be skipped, see C17. The first tag counts. Without one, or if the variant is not known, decoding fails. -/
theorem C74_documents_descriptive {tag : Name} {nt nt' : NameTy} {vs : Variants} {fs : Fields}
    (hnd : vs.names.Nodup) (hok : WellFormedTy .descriptive (.strct nt' fs) = true) (henv : fs.envOk env)
    (hp : fs.unpacked = true) (htag : tag ∉ fs.names) (hty : nt' = tag.ty)
    (es : List (Heading fs.Entry)) (hn : ∀ n, .inl n ∈ es → n.ty = nt)
    (hu : ∀ u, .inr (.inr u) ∈ es → u.name ∉ fs.names ∧ u.name ≠ tag ∧ u.name.ty = tag.ty ∧ u.ty.counted = true)
    (bs rest : Bytes) (he : encInternalDoc o env .descriptive tag fs es = .ok bs) :
    (firstTag es = none → decInternal o env tag nt vs (bs ++ rest) = .error .missing) ∧
    (∀ n, firstTag es = some n → n ∉ vs.names →
      decInternal o env tag nt vs (bs ++ rest) = .error .unknown) ∧
    (∀ v w, firstTag es = some (vs.nameOf v) → vs.payload v = ⟨.strct nt' fs, w⟩ →
      fs.assemble env ((es.filterMap Sum.getRight?).filterMap Sum.getLeft?) = .ok w →
      decInternal o env tag nt vs (bs ++ rest) = .ok (v, rest)) :=
  internal_doc o env hnd hok henv hp htag hty es hn hu bs rest he

open Json Json.Spec in
/-- **C74.** JSON: the same, for every text of a document, where the other members are named like the tag. -/
theorem C74_documents_json (flt : Bool → Parts 128 → BitVec 64) {tag : Name} {nt : NameTy} {vs : Variants}
    (hnd : vs.names.Nodup) (l : List (Str × Doc)) (hs : (Doc.obj l).small) (ws x rest : Bytes) (hw : Ws ws)
    (hx : (Doc.obj l).text x) (hr : NoNumber rest) :
    ((∀ m ∈ l, OtherKey tag m.1) →
      decInternalJ env flt tag nt vs (ws ++ (x ++ rest)) = .error (.missing, rest)) ∧
    (∀ pre k d post n, l = pre ++ (k, d) :: post → (∀ m ∈ pre, OtherKey tag m.1) →
      NameKeyDoc tag k → NameDoc n d → n.ty = nt →
      (n ∉ vs.names → decInternalJ env flt tag nt vs (ws ++ (x ++ rest)) = .error (.unknown, rest)) ∧
      (∀ v, vs.nameOf v = n → (vs.payload v).1.jsonNames = true →
        DocOf env (vs.payload v).1 (vs.payload v).2 (.obj l) →
        decInternalJ env flt tag nt vs (ws ++ (x ++ rest)) = .ok (v, rest))) :=
  internalJ_doc flt env hnd l hs ws x rest hw hx hr

end

section
open Sample
attribute [local instance] Sample.host

/-- The fields of `High`. -/
def highFields : Fields := .cons (str (utf8% "x")) none none (.prim (.uint .w64)) .nil

/-- A field, an unknown entry, the tag, and the field again. -/
def C74Sample : List (Heading highFields.Entry) :=
  [.inr (.inl (.inl 1#64)), .inr (.inr ⟨str (utf8% "extra"), person, bob⟩), .inl (str (utf8% "High")),
    .inr (.inl (.inl 300#64))]

example : firstTag C74Sample = some (shape.nameOf high) ∧
    shape.payload high = ⟨.strct .str highFields, (300#64, ())⟩ ∧
    highFields.assemble env ((C74Sample.filterMap Sum.getRight?).filterMap Sum.getLeft?) = .ok (300#64, ()) :=
  ⟨by decide, rfl, rfl⟩
example : (encInternalDoc varOpts env .descriptive type highFields C74Sample).isOk = true := by decide
example : Json.decInternalJ env (fun _ _ => 0) type .str shape
    (utf8% "{\"x\": 300, \"extra\": [1, {}], \"type\" : \"\\u0048igh\"} 1") =
    .ok (high, utf8% " 1") := by first | decide +kernel | rfl
end

/-! ## C75: `#[musli(untagged)]` -/

section
variable [Host] (o : Options) (env : Env)

/-- **C75**, the full statement: what was encoded is decoded and consumed, unless it can be decoded as an earlier variant. -/
def C75Full : Prop := ∀ (m : Mode) (vs : Variants) (v : vs.Val) (bs rest : Bytes),
  vs.bodiesOk (Opt.isNativeFixed o) (hostOrder o) m false = true → vs.envOk env → encBody o env vs m v = .ok bs →
  (∀ t ∈ vs.earlier v, ∃ e, decode o env m t (bs ++ rest) = .error e) →
  decUntagged o env vs m (bs ++ rest) = .ok (v, rest)

/-- **C75 (partial).** It is decoded as the value, but consumed only if it is the last variant. -/
theorem C75_decode_partial {m : Mode} (vs : Variants)
    (hok : vs.bodiesOk (Opt.isNativeFixed o) (hostOrder o) m false = true) (henv : vs.envOk env)
    (v : vs.Val) (bs rest : Bytes) (he : encBody o env vs m v = .ok bs)
    (hearlier : ∀ t ∈ vs.earlier v, ∃ e, decode o env m t (bs ++ rest) = .error e) :
    decUntagged o env vs m (bs ++ rest) = .ok (v, if vs.isLast v then rest else bs ++ rest) :=
  untagged_decode o env vs hok henv v bs rest he hearlier

/-- **C75.** So a sequence of `n` elements that starts with a variant which is not the last is decoded as `n` copies of its first
element, whatever the others are. -/
theorem C75_violated_sequence {m : Mode} (vs : Variants)
    (hok : vs.bodiesOk (Opt.isNativeFixed o) (hostOrder o) m false = true) (henv : vs.envOk env)
    (v : vs.Val) (hlast : vs.isLast v = false) (bs rest : Bytes) (he : encBody o env vs m v = .ok bs)
    (hearlier : ∀ t ∈ vs.earlier v, ∃ e, decode o env m t (bs ++ rest) = .error e) (n : Nat) :
    decN (decUntagged o env vs m) n (bs ++ rest) = .ok (List.replicate n v, bs ++ rest) := by
  have h := untagged_decode o env vs hok henv v bs rest he hearlier
  rw [hlast] at h
  exact decN_stuck h n

end

section
variable (full : Bool) (env : Env)
open Json Json.Spec

/-- **C75 (partial).** JSON. -/
theorem C75_decode_json_partial (vs : Variants) (hn : vs.jsonNames = true) (v : vs.Val) (ws x rest : Bytes)
    (hw : Lead (vs.payload v).1 ws) (hx : Denotes env (vs.payload v).1 (vs.payload v).2 x) (hr : NoNumber rest)
    (hearlier : ∀ t ∈ vs.earlier v, ∃ e, Json.decode full env t (ws ++ (x ++ rest)) = .error e) :
    decUntaggedJ env full true vs (ws ++ (x ++ rest)) =
      .ok (v, if vs.isLast v then rest else ws ++ (x ++ rest)) :=
  untaggedJ_decode full env vs hn v ws x rest hw hx hr hearlier

/-- **C75.** A parser that advances the slice which it is given cannot be cloned: only the last variant can ever be
decoded. -/
theorem C75_no_clone_last_only (vs : Variants) (s : Bytes) (v : vs.Val) (s' : Bytes)
    (h : decUntaggedJ env full false vs s = .ok (v, s')) : vs.isLast v = true :=
  untaggedJ_noClone full env vs s v s' h

/-- **C75.** In JSON, decoding of a sequence does not end once it comes to a variant which is not the last: whatever number of elements
has been decoded, there is one more. -/
theorem C75_violated_json_sequence (vs : Variants) (hn : vs.jsonNames = true) (v : vs.Val)
    (hlast : vs.isLast v = false) (b : Byte) (y rest : Bytes) (hb : (Token.ofByte b).isValue = true)
    (hws : isWs b = false) (hx : Denotes env (vs.payload v).1 (vs.payload v).2 (b :: y)) (hr : NoNumber rest)
    (hearlier : ∀ t ∈ vs.earlier v, ∃ e, Json.decode full env t (b :: y ++ rest) = .error e) (fuel : Nat) :
    ∃ r, elems (decUntaggedJ env full true vs) fuel false (b :: y ++ rest) = .error (.fuel, r) := by
  have h := untaggedJ_decode full env vs hn v [] (b :: y) rest lead_nil hx hr hearlier
  rw [hlast] at h
  refine elems_stuck ⟨v, h⟩ ?_ fuel
  show nextValue false (b :: (y ++ rest)) = .ok (true, b :: (y ++ rest))
  unfold nextValue
  rw [if_neg (by rw [hws]; simp), if_pos hb]

end

section
open Sample
attribute [local instance] Sample.host

/-- `enum { Num(u8), Text(String) }`, with transparent variants. -/
def numOrText : Variants :=
  .cons (str (utf8% "Num")) (.transparent (.prim (.uint .w8)))
  (.cons (str (utf8% "Text")) (.transparent .string) .nil)

example : numOrText.bodiesOk (Opt.isNativeFixed varOpts) (hostOrder varOpts) .descriptive false = true := by decide
/-- `Text("hi")` is not a number. -/
example : encBody varOpts env numOrText .descriptive (.inr (.inl ⟨utf8% "hi", by decide⟩)) =
      .ok [0xC2, 0x68, 0x69] ∧
    (decode varOpts env .descriptive (.transparent (.prim (.uint .w8))) [0xC2, 0x68, 0x69]).isOk = false ∧
    decUntagged varOpts env numOrText .descriptive [0xC2, 0x68, 0x69] =
      .ok (.inr (.inl ⟨utf8% "hi", by decide⟩), []) := ⟨rfl, rfl, rfl⟩

/-- `[5, "hi"]` runs out of any fuel. -/
example : (Json.elems (Json.decUntaggedJ env true true numOrText) 50 false (utf8% "5,\"hi\"]")).isOk = false ∧
    numOrText.isLast (.inl 5#8) = false := by decide +kernel

/-- `Num(5)` is decoded but not consumed. -/
theorem C75_violated :
    encBody varOpts env numOrText .descriptive (.inl 5#8) = .ok [0x4D, 5] ∧
    decUntagged varOpts env numOrText .descriptive [0x4D, 5, 1, 2] = .ok (.inl 5#8, [0x4D, 5, 1, 2]) := ⟨rfl, rfl⟩

@[inherit_doc C75Full]
theorem C75_full_statement_false : ¬C75Full varOpts env := by
  intro h
  have := h .descriptive numOrText (.inl 5#8) [0x4D, 5] [1, 2] (by decide)
    (by simp only [numOrText, Ty.envOk, Variants.envOk, and_true]) C75_violated.1
    (fun t h => by simp [numOrText, Variants.earlier] at h)
  rw [show ([0x4D, 5] ++ [1, 2] : Bytes) = [0x4D, 5, 1, 2] from rfl, C75_violated.2] at this
  cases this
end

/-! ## C76: a fallback variant, `#[musli(default)]` -/

section
variable [Host] (o : Options) (env : Env)

/-- **C76.** With a fallback, the variants that are known are decoded as before. -/
theorem C76_known {m : Mode} {nt : NameTy} {vs : Variants}
    (hok : Supported o m (.enm nt vs) = true) (henv : vs.envOk env) (fb v : vs.Val) (bs rest : Bytes)
    (he : encode o env m (.enm nt vs) v = .ok bs) :
    decFallback o env nt vs fb m (bs ++ rest) = .ok (v, rest) :=
  fallback_known o env hok henv fb v bs rest he

/-- **C76.** Wire and descriptive: a variant with any other name and a body of any type is the fallback, and is consumed. (The body
must be one that can be skipped, see C13.) -/
theorem C76_unknown {m : Mode} (hm : m = .wire ∨ m = .descriptive) {nt : NameTy} {vs : Variants} (fb : vs.Val)
    (n : Name) (hn : n ∉ vs.names) (hnt : n.ty = nt) (t : Ty) (x : t.Val)
    (hk : t.counted = true) (hs : m = .descriptive ∨ WireSkippable o t = true) (bs rest : Bytes)
    (he : encAnyVariant o env m n t x = .ok bs) :
    decFallback o env nt vs fb m (bs ++ rest) = .ok (fb, rest) := by
  obtain ⟨y, hy, hrun⟩ := fallback_unknown o env (vs := vs) fb n hn hnt t x bs rest he
  have hskip : (m.fmt o).skip (y ++ rest) = .ok ((), rest) := by
    rcases hm with rfl | rfl
    · have ht : WireSkippable o t = true := by
        rcases hs with h | h
        · cases h
        · exact h
      simp only [WireSkippable, Bool.and_eq_true, Bool.or_eq_true, decide_eq_true_eq] at ht
      obtain ⟨_, h | h⟩ := ht
      · exact skipAny_of_skips (Wire.consumes_step o)
          (skipsD o env (m := .wire) (us := true) (Wire.skippable o true fun _ => h) t (.inl rfl) hk x y hy) rest
      · exact skipAny_of_skips (Wire.consumes_step o)
          (skipsD o env (m := .wire) (us := false) (Wire.skippable o false (by simp)) t (.inr h) hk x y hy) rest
    · exact skipAny_of_skips (Desc.consumes_step o)
        (skipsD o env (m := .descriptive) (Desc.skippable o) t (.inl rfl) hk x y hy) rest
  rw [hrun, hskip]

/-- **C76.** Storage and packed cannot skip: there it is an error. -/
theorem C76_unknown_storage {m : Mode} (hm : m = .storage ∨ m = .packed) {nt : NameTy} {vs : Variants} (fb : vs.Val)
    (n : Name) (hn : n ∉ vs.names) (hnt : n.ty = nt) (t : Ty) (x : t.Val) (bs rest : Bytes)
    (he : encAnyVariant o env m n t x = .ok bs) :
    decFallback o env nt vs fb m (bs ++ rest) = .error .unsupported := by
  obtain ⟨y, hy, hrun⟩ := fallback_unknown o env (vs := vs) fb n hn hnt t x bs rest he
  rw [hrun]
  rcases hm with rfl | rfl <;> rfl

/-- **C76.** Enums without data: all names which are not known are the fallback. -/
theorem C76_unit {m : Mode} {nt : NameTy} {names : List Name} (hnd : names.Nodup)
    (fb : Fin names.length) (n : Name) (hnt : n.ty = nt) (bs rest : Bytes)
    (he : encName (m.fmt o) n = .ok bs) :
    (∀ i : Fin names.length, names[i] = n → decUnitFallback o nt names fb m (bs ++ rest) = .ok (i, rest)) ∧
    (n ∉ names → decUnitFallback o nt names fb m (bs ++ rest) = .ok (fb, rest)) :=
  unitFallback o hnd fb n hnt bs rest he

end

section
variable (full : Bool) (env : Env)
open Json Json.Spec

/-- **C76.** JSON: every text of a variant that is known is that variant, and every object with one member of another name
is the fallback. -/
theorem C76_json {nt : NameTy} {vs : Variants} (hn : (Ty.enm nt vs).jsonNames = true) (fb : vs.Val)
    (ws x rest : Bytes) (hw : Ws ws) (hr : NoNumber rest) :
    (∀ v, Denotes env (.enm nt vs) v x → decFallbackJ env full nt vs fb (ws ++ (x ++ rest)) = .ok (v, rest)) ∧
    (∀ n, n ∉ vs.names → n.ty = nt → Obj [Member (NameKey n) IsValue] x →
      decFallbackJ env full nt vs fb (ws ++ (x ++ rest)) = .ok (fb, rest)) :=
  ⟨fun v hx => fallbackJ_known full env hn fb v x hx ws hw rest hr,
    fun n h1 h2 hx => fallbackJ_unknown full env fb n h1 h2 x hx ws hw rest hr⟩

/-- **C76.** JSON, enums without data. -/
theorem C76_unit_json {nt : NameTy} {names : List Name} (hnd : names.Nodup) (fb : Fin names.length) (n : Name)
    (hnt : n.ty = nt) (ws x rest : Bytes) (hw : Ws ws) (hr : NoNumber rest) (hx : NameText n x) :
    (∀ i : Fin names.length, names[i] = n → decUnitFallbackJ full nt names fb (ws ++ (x ++ rest)) = .ok (i, rest)) ∧
    (n ∉ names → decUnitFallbackJ full nt names fb (ws ++ (x ++ rest)) = .ok (fb, rest)) :=
  ⟨fun i hi => (unitFallbackJ full hnd fb n hnt).1 i hi x hx ws hw rest hr,
    fun h => (unitFallbackJ full hnd fb n hnt).2 h x hx ws hw rest hr⟩

end

section
open Sample
attribute [local instance] Sample.host

example : str (utf8% "Other") ∉ shape.names ∧
    (encAnyVariant varOpts env .wire (str (utf8% "Other")) person bob).isOk = true := by decide
example : Json.decFallbackJ env true .str shape (.inl ()) (utf8% "{\"Other\": [1, {\"a\": 2}]} 1") =
    .ok (.inl (), utf8% " 1") := by first | decide +kernel | rfl
end

end Musli
