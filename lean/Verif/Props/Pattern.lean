import Verif.Proofs.Pattern
import Verif.Props.Documents
/-!
# C120: patterns on fields and variants
-/
namespace Musli

section
variable [Host] (o : Options) (env : Env)

/-- **C120.** Structs in all binary formats: a document with any entries, in any order, repeated or missing, under any
names. The value under a name belongs to the first field which accepts the name, the last such value counts, fields
without a value have their default or are an error, and entries which no field accepts are skipped, where the
format can (see C13, C15, C17). -/
theorem C120_struct {m : Mode} (nt : NameTy) (fs : Fields) (ps : Pats)
    (hok : Supported o m (.strct nt fs) = true) (henv : fs.envOk env) (es : List (fs.NamedEntry Unknown))
    (hk : ∀ e, .inl e ∈ es → e.1.ty = nt ∧ StandsFor fs.names ps e.1 (fs.position e.2))
    (hu : ∀ u, .inr u ∈ es → u.name.ty = nt ∧ Unclaimed fs.names ps u.name ∧
      ((m = .descriptive ∧ u.ty.counted = true) ∨ (m = .wire ∧ WireSkippable o u.ty = true)))
    (bs rest : Bytes) (he : fs.encNamedDoc o env m es = .ok bs) :
    decStructPat o env nt fs ps m (bs ++ rest) =
      match fs.assemble env (fs.valuesOf es) with
      | .ok v => .ok (v, rest)
      | .error e => .error e := by
  simp only [Supported, Ty.ok, Bool.and_eq_true] at hok
  refine decStructPat_doc o env nt fs ps hok.2 henv es hk (fun u h => ?_) bs rest he
  obtain ⟨h1, h2, h3⟩ := hu u h
  refine ⟨h1, h2, fun bs r he => ?_⟩
  rcases h3 with ⟨rfl, h3⟩ | ⟨rfl, h3⟩
  · exact C17_descriptive_skip_partial o env u.ty h3 u.val bs r he
  · exact C13_wire_skip_partial o env u.ty h3 u.val bs r he

/-- **C120.** A struct is decoded from what it is encoded to, if every field is the first that accepts its own name. -/
theorem C120_round_trip {m : Mode} {nt : NameTy} {fs : Fields} {ps : Pats}
    (hok : Supported o m (.strct nt fs) = true) (henv : fs.envOk env) (hown : OwnNames fs.names ps) (v : fs.Val)
    (bs rest : Bytes) (he : encode o env m (.strct nt fs) v = .ok bs) :
    decStructPat o env nt fs ps m (bs ++ rest) = .ok (v, rest) :=
  decStructPat_own o env hok henv hown v bs rest he

/-- **C120.** Without patterns it is the decoder of all other properties. -/
theorem C120_without_patterns (m : Mode) (nt : NameTy) (fs : Fields) (vs : Variants) :
    decStructPat o env nt fs Pats.none m = decode o env m (.strct nt fs) ∧
    decEnumPat o env nt vs Pats.none none m = decode o env m (.enm nt vs) :=
  ⟨decStructPat_none o env m nt fs, decEnumPat_none o env m nt vs⟩

/-- **C120.** Enums: a body under any name is decoded as the first variant which accepts the name. -/
theorem C120_enum {m : Mode} {nt : NameTy} {vs : Variants} {ps : Pats}
    (hok : Supported o m (.enm nt vs) = true) (henv : vs.envOk env) (fb : Option vs.Val) (name : Name)
    (hnt : name.ty = nt) (v : vs.Val) (hs : StandsFor vs.names ps name (vs.position v)) (bs rest : Bytes)
    (he : encAnyVariant o env m name (vs.payload v).1 (vs.payload v).2 = .ok bs) :
    decEnumPat o env nt vs ps fb m (bs ++ rest) = .ok (v, rest) :=
  decEnumPat_known o env hok henv fb name hnt v hs bs rest he

/-- **C120.** In particular an enum is decoded from what it is encoded to, if every variant is the first that accepts
its own name. -/
theorem C120_enum_round_trip {m : Mode} {nt : NameTy} {vs : Variants} {ps : Pats}
    (hok : Supported o m (.enm nt vs) = true) (henv : vs.envOk env) (fb : Option vs.Val)
    (hown : OwnNames vs.names ps) (v : vs.Val) (bs rest : Bytes)
    (he : encode o env m (.enm nt vs) v = .ok bs) :
    decEnumPat o env nt vs ps fb m (bs ++ rest) = .ok (v, rest) := by
  have hok' := hok
  simp only [Supported, Ty.ok, Bool.and_eq_true] at hok'
  rw [encode_enum_own o env m nt vs v hok'.2] at he
  obtain ⟨_, hty⟩ := namesOk_iff hok'.1
  exact decEnumPat_known o env hok henv fb _ (hty _ (nameOf_mem vs v)) v (hown _ _ (nameOf_position vs v)) bs rest he

/-- **C120.** If a body is decoded at all, it is decoded as the first variant which accepts its name. So a value of an
enum round-trips only if its variant is the first which accepts its own name. -/
theorem C120_enum_only {m : Mode} {nt : NameTy} {vs : Variants} {ps : Pats} :
    (∀ (n : Name), n.ty = nt → ∀ (t : Ty) (x : t.Val) (bs rest r : Bytes), encAnyVariant o env m n t x = .ok bs →
      ∀ v, decEnumPat o env nt vs ps none m (bs ++ rest) = .ok (v, r) → StandsFor vs.names ps n (vs.position v)) ∧
    (Supported o m (.enm nt vs) = true → vs.envOk env → ∀ (v : vs.Val) (bs : Bytes),
      encode o env m (.enm nt vs) v = .ok bs →
      (decEnumPat o env nt vs ps none m bs = .ok (v, []) ↔ StandsFor vs.names ps (vs.nameOf v) (vs.position v))) := by
  refine ⟨fun n hnt t x bs rest r he v h => decEnumPat_stands o env n hnt t x bs rest r he v h, ?_⟩
  intro hok henv v bs he
  have hok' := hok
  simp only [Supported, Ty.ok, Bool.and_eq_true] at hok'
  rw [encode_enum_own o env m nt vs v hok'.2] at he
  obtain ⟨_, hty⟩ := namesOk_iff hok'.1
  constructor
  · intro h
    rw [← List.append_nil bs] at h
    exact decEnumPat_stands o env _ (hty _ (nameOf_mem vs v)) _ _ bs [] _ he v h
  · intro hs
    have := decEnumPat_known o env hok henv none _ (hty _ (nameOf_mem vs v)) v hs bs [] he
    rwa [List.append_nil] at this

/-- **C120.** Enums: a name which no variant accepts is an error without a `#[musli(default)]` variant, and with one
its body is skipped. -/
theorem C120_enum_unclaimed {m : Mode} {nt : NameTy} {vs : Variants} {ps : Pats} (n : Name)
    (hn : Unclaimed vs.names ps n) (hnt : n.ty = nt) (t : Ty) (x : t.Val) (bs rest : Bytes)
    (he : encAnyVariant o env m n t x = .ok bs) :
    decEnumPat o env nt vs ps none m (bs ++ rest) = .error .unknown ∧
    ∀ fb, (m = .descriptive ∧ t.counted = true) ∨ (m = .wire ∧ WireSkippable o t = true) →
      decEnumPat o env nt vs ps (some fb) m (bs ++ rest) = .ok (fb, rest) := by
  constructor
  · obtain ⟨y, hy, h⟩ := decEnumPat_unclaimed o env (vs := vs) (ps := ps) none n hn hnt t x bs rest he
    exact h
  · intro fb hm
    obtain ⟨y, hy, h⟩ := decEnumPat_unclaimed o env (vs := vs) (ps := ps) (some fb) n hn hnt t x bs rest he
    have hs : (m.fmt o).skip (y ++ rest) = .ok ((), rest) := by
      rcases hm with ⟨rfl, h3⟩ | ⟨rfl, h3⟩
      · exact C17_descriptive_skip_partial o env t h3 x y rest hy
      · exact C13_wire_skip_partial o env t h3 x y rest hy
    rw [h]
    dsimp only
    rw [hs]

/-- **C120.** Enums without data. -/
theorem C120_unit {m : Mode} {nt : NameTy} {names : List Name} {ps : Pats} (fb : Option (Fin names.length))
    (n : Name) (hnt : n.ty = nt) (bs rest : Bytes) (he : encName (m.fmt o) n = .ok bs) :
    (∀ i : Fin names.length, StandsFor names ps n i.1 → decUnitPat o nt names ps fb m (bs ++ rest) = .ok (i, rest)) ∧
    (Unclaimed names ps n → decUnitPat o nt names ps fb m (bs ++ rest) =
      match fb with
      | none => .error .unknown
      | some f => .ok (f, rest)) :=
  decUnitPat_run o fb n hnt bs rest he

/-- **C120.** Enums without data are decoded from what they are encoded to exactly if every variant is the first that accepts its
own name. -/
theorem C120_unit_round_trip_iff {m : Mode} {nt : NameTy} {names : List Name} {ps : Pats}
    (hnt : ∀ n ∈ names, n.ty = nt) (henc : ∀ n ∈ names, (encName (m.fmt o) n).isOk = true) :
    (∀ (i : Fin names.length) (bs : Bytes), encode o env m (.unitEnum nt names) i = .ok bs →
      decUnitPat o nt names ps none m bs = .ok (i, [])) ↔ OwnNames names ps := by
  rw [ownNames_iff]
  constructor
  · intro h i
    have he := henc names[i] (by simp)
    obtain ⟨bs, hbs⟩ : ∃ bs, encName (m.fmt o) names[i] = .ok bs := by
      cases hc : encName (m.fmt o) names[i] with
      | ok bs => exact ⟨bs, rfl⟩
      | error e => rw [hc] at he; cases he
    have hrun := h i bs (by unfold encode; simp only [encD]; exact hbs)
    have hr := C120_unit o (names := names) (ps := ps) none names[i] (hnt _ (by simp)) bs [] hbs
    rw [List.append_nil] at hr
    rcases stands_or_unclaimed names[i] names ps with ⟨j, hj⟩ | hu
    · rw [hr.1 j hj] at hrun
      cases hrun
      exact findArm_standsFor i hj
    · rw [hr.2 hu] at hrun
      cases hrun
  · intro h i bs he
    unfold encode at he
    simp only [encD] at he
    have hr := (C120_unit o (names := names) (ps := ps) none names[i] (hnt _ (by simp)) bs [] he).1 i (standsFor_iff.mpr (h i))
    rwa [List.append_nil] at hr

end

namespace Json
open Json.Spec
variable (full : Bool) (env : Env)

/-- **C120.** Structs in JSON: the same for every text of an object. -/
theorem C120_json_struct {nt : NameTy} {fs : Fields} {ps : Pats} (hn : fs.jsonNames = true)
    (es : List (fs.NamedEntry Name))
    (hk : ∀ e, .inl e ∈ es → e.1.ty = nt ∧ StandsFor fs.names ps e.1 (fs.position e.2))
    (hu : ∀ n, .inr n ∈ es → n.ty = nt ∧ Unclaimed fs.names ps n)
    (ws x rest : Bytes) (hw : Ws ws) (hr : NoNumber rest) (hx : Obj (es.map (namedMember env fs)) x) :
    (∀ v, fs.assemble env (fs.valuesOf es) = .ok v →
      decStructPatJ full env nt fs ps (ws ++ (x ++ rest)) = .ok (v, rest)) ∧
    (∀ e, fs.assemble env (fs.valuesOf es) = .error e →
      decStructPatJ full env nt fs ps (ws ++ (x ++ rest)) = .error (e, rest)) :=
  decStructPatJ_doc full env hn es hk hu ws x rest hw hr hx

/-- **C120.** Structs round-trip in JSON. -/
theorem C120_json_round_trip {nt : NameTy} {fs : Fields} {ps : Pats} (ho : (Ty.strct nt fs).jsonOk = true)
    (hn : (Ty.strct nt fs).jsonNames = true) (he : fs.envOk env) (hown : OwnNames fs.names ps) (v : fs.Val)
    (ws x rest : Bytes) (hw : Ws ws) (hr : NoNumber rest) (h : encode env (.strct nt fs) v = .ok x) :
    decStructPatJ full env nt fs ps (ws ++ (x ++ rest)) = .ok (v, rest) :=
  decStructPatJ_own full env ho hn he hown v ws x rest hw hr h

/-- **C120.** Enums in JSON: an object with one member. -/
theorem C120_json_enum {nt : NameTy} {vs : Variants} {ps : Pats} (hn : vs.jsonNames = true)
    (fb : Option vs.Val) (name : Name) (hnt : name.ty = nt) (ws x rest : Bytes) (hw : Ws ws) (hr : NoNumber rest) :
    (∀ v, StandsFor vs.names ps name (vs.position v) →
      Obj [MemberL (NameKey name) (Lead (vs.payload v).1) (Denotes env (vs.payload v).1 (vs.payload v).2)] x →
      decEnumPatJ full env nt vs ps fb (ws ++ (x ++ rest)) = .ok (v, rest)) ∧
    (Unclaimed vs.names ps name → Obj [Member (NameKey name) IsValue] x →
      match fb with
      | none => ∃ r, decEnumPatJ full env nt vs ps fb (ws ++ (x ++ rest)) = .error (.unknown, r)
      | some f => decEnumPatJ full env nt vs ps fb (ws ++ (x ++ rest)) = .ok (f, rest)) :=
  ⟨fun v hs hx => decEnumPatJ_known full env hn fb name hnt v hs x hx ws hw rest hr,
    fun hu hx => decEnumPatJ_unclaimed full env fb name hnt hu x hx ws hw rest hr⟩

/-- **C120.** Enums without data in JSON. -/
theorem C120_json_unit {nt : NameTy} {names : List Name} {ps : Pats} (fb : Option (Fin names.length)) (n : Name)
    (hnt : n.ty = nt) (ws x rest : Bytes) (hw : Ws ws) (hr : NoNumber rest) (hx : NameText n x) :
    (∀ i : Fin names.length, StandsFor names ps n i.1 →
      decUnitPatJ full nt names ps fb (ws ++ (x ++ rest)) = .ok (i, rest)) ∧
    (Unclaimed names ps n →
      match fb with
      | none => ∃ r, decUnitPatJ full nt names ps fb (ws ++ (x ++ rest)) = .error (.unknown, r)
      | some f => decUnitPatJ full nt names ps fb (ws ++ (x ++ rest)) = .ok (f, rest)) :=
  ⟨fun i hi => (decUnitPatJ_run full fb n hnt).1 i hi x hx ws hw rest hr,
    fun hu => (decUnitPatJ_run full fb n hnt).2 hu x hx ws hw rest hr⟩

end Json

section
open Sample
attribute [local instance] Sample.host

/-- The range `lo..=hi`. -/
def range (lo hi : Nat) : Pat
  | .idx n => lo ≤ n.toNat && n.toNat ≤ hi
  | .str _ => false

/-- `struct StructPattern { field1: u32, #[musli(pattern = 1..=2)] field2: u32, #[musli(name = 3)] field4: u32 }`,
`crates/musli/tests/struct_fallback.rs:13-20`. -/
def structPattern : Fields :=
  .cons (.idx 0) none none (.prim (.uint .w32)) (.cons (.idx 1) none none (.prim (.uint .w32))
    (.cons (.idx 3) none none (.prim (.uint .w32)) .nil))

/-- Its pattern. -/
def structPats : Pats := fun i => if i = 1 then some (range 1 2) else none

example : OwnNames structPattern.names structPats := by rw [ownNames_iff]; decide
example : StandsFor structPattern.names structPats (.idx 2) 1 := (standsFor_iff (i := ⟨1, by decide⟩)).mpr (by decide)
example : Unclaimed structPattern.names structPats (.idx 4) := unclaimed_iff.mpr (by decide)

/-- The document of `Struct { 0, 1, 2, 3 }` with an unknown fourth field is read as `StructPattern { 0, 2, 3 }`, as the test
has it. -/
example :
    let es : List (structPattern.NamedEntry Unknown) :=
      [.inl (.idx 0, .inl 0#32), .inl (.idx 1, .inr (.inl 1#32)), .inl (.idx 2, .inr (.inl 2#32)),
        .inl (.idx 3, .inr (.inr (.inl 3#32))), .inr ⟨.idx 4, .string, ⟨utf8% "x", by decide⟩⟩]
    ∃ bs, structPattern.encNamedDoc varOpts env .descriptive es = .ok bs ∧
      decStructPat varOpts env .idx structPattern structPats .descriptive bs =
        .ok ((0#32, 2#32, 3#32, ()), []) := ⟨_, rfl, rfl⟩

/-- `enum Enum { Variant1, Variant2, #[musli(pattern = 2..=4 | 10..=20)] Deprecated }`, `help/derives.md:766-773`. -/
def enumPats : Pats := fun i => if i = 2 then some (fun n => range 2 4 n || range 10 20 n) else none

example : OwnNames [.idx 0, .idx 1, .idx 2] enumPats ∧ StandsFor [.idx 0, .idx 1, .idx 2] enumPats (.idx 15) 2 ∧
    Unclaimed [.idx 0, .idx 1, .idx 2] enumPats (.idx 5) :=
  ⟨by rw [ownNames_iff]; decide, (standsFor_iff (i := ⟨2, by decide⟩)).mpr (by decide), unclaimed_iff.mpr (by decide)⟩

example : encode varOpts env .storage (.unitEnum .idx [.idx 0, .idx 1, .idx 2]) ⟨2, by decide⟩ = .ok [2] ∧
    decUnitPat varOpts .idx [.idx 0, .idx 1, .idx 2] enumPats none .storage [15, 1] = .ok (⟨2, by decide⟩, [1]) := by
  decide

/-- A pattern which does not accept the name of its variant: the variant is encoded, but not decoded. -/
example : ¬OwnNames [.idx 0, .idx 1] (fun i => if i = 1 then some (range 5 9) else none) := by
  rw [ownNames_iff]; decide

/-- `{"old": 1}` and `{"new": 1}` are both read with `#[musli(pattern = "old" | "new")]`. -/
example :
    let fs : Fields := .cons (str (utf8% "new")) none none (.prim (.uint .w8)) .nil
    let ps : Pats := fun _ => some fun n => n == str (utf8% "old") || n == str (utf8% "new")
    OwnNames fs.names ps ∧ StandsFor fs.names ps (str (utf8% "old")) 0 ∧
    Json.decStructPatJ true env .str fs ps (utf8% "{\"old\": 1, \"x\": []}") = .ok ((1#8, ()), []) :=
  ⟨by rw [ownNames_iff]; decide, (standsFor_iff (i := ⟨0, by decide⟩)).mpr (by decide), by first | rfl | decide +kernel⟩
end

end Musli
