import Verif.Proofs.Json.Upgrade
import Verif.Proofs.Json.DecodeTy
import Verif.Props.Samples
/-!
# C104: a program with other versions of the types

`Spec/Upgrade.lean` says what a program should read.
-/
namespace Musli

section
variable [Host] (o : Options) (env : Env)

/-- **C104.** wire with lengths of variable width (the default): what one program wrote as `s`, a program which
has `t` instead reads as the value it should, and no byte more. Structs and enums inside of the types can have
fields and variants added, removed and reordered, at any depth. -/
theorem C104_wire (hl : Opt.length o = .variable) {s t : Ty} {v : s.Val} {w : t.Val}
    (hs : Supported o .wire s = true) (ht : Supported o .wire t = true) (henv : t.envOk env)
    (hu : Upgrade env s t v w) (bs rest : Bytes) (he : encode o env .wire s v = .ok bs) :
    decode o env .wire t (bs ++ rest) = .ok (w, rest) :=
  upgradeD o env (m := .wire) rfl (by decide) (Wire.skippable o true fun _ => hl) rfl (Wire.consumes_step o) (fun _ => rfl)
    hu hs ht henv bs rest he

/-- **C104.** descriptive, with any options. -/
theorem C104_descriptive {s t : Ty} {v : s.Val} {w : t.Val} (hs : Supported o .descriptive s = true)
    (ht : Supported o .descriptive t = true) (henv : t.envOk env) (hu : Upgrade env s t v w) (bs rest : Bytes)
    (he : encode o env .descriptive s v = .ok bs) : decode o env .descriptive t (bs ++ rest) = .ok (w, rest) :=
  upgradeD o env (m := .descriptive) rfl (by decide) (Desc.skippable o) rfl (Desc.consumes_step o) (fun _ => rfl) hu hs ht henv bs rest he

omit [Host] in
/-- **C104.** JSON, with either number parser. -/
theorem C104_json (full : Bool) {s t : Ty} {v : s.Val} {w : t.Val} (hs : s.jsonNames = true) (ht : t.jsonNames = true)
    (hok : t.jsonOk = true) (henv : t.envOk env) (hu : Upgrade env s t v w) (bs rest : Bytes)
    (he : Json.encode env s v = .ok bs) (hr : Json.Spec.NoNumber rest) :
    Json.decode full env t (bs ++ rest) = .ok (w, rest) :=
  Json.decJ_denotes full env t ht w bs ((Json.upgradeJ env hu hs ht).1 hok henv bs he) [] Json.lead_nil rest hr

/-- **C104.** A variant which the reader does not have is an error, in every format, whatever follows. -/
theorem C104_unknown_variant (m : Mode) {nt : NameTy} {us vs : Variants} {v : us.Val}
    (hs : Supported o m (.enm nt us) = true) (hn : (us.written v).name ∉ vs.names) (bs rest : Bytes)
    (he : encode o env m (.enm nt us) v = .ok bs) : decode o env m (.enm nt vs) (bs ++ rest) = .error .unknown := by
  have hF := m.lawful o
  simp only [Supported, Ty.ok, Bool.and_eq_true] at hs
  simp only [encode, encD] at he
  obtain ⟨a, b, ha, hb, rfl⟩ := Enc.seq_eq_ok.mp he
  rw [encVariants_written o env _ _ m us v hs.2] at hb
  obtain ⟨x, y, hx, hy, rfl⟩ := Enc.seq_eq_ok.mp hb
  obtain ⟨_, hty⟩ := namesOk_iff hs.1
  obtain ⟨_, hmem⟩ := variantWritten_ok _ _ m us v hs.2
  have hname := decName_encName hF _ x (y ++ rest) hx
  rw [hty _ hmem] at hname
  simp only [decode, decD]
  rw [List.append_assoc, Dec.bind_ok (hF.variant a _ ha), List.append_assoc, Dec.bind_ok hname]
  exact decVariants_notFound o env m vs _ hn _

end

namespace Sample

/-- ```
struct Config { name: String, entries: Vec<Entry> }
struct Entry { id: u32, kind: Kind }
enum Kind { A, B { x: u64 } }
``` -/
def kind1 : Ty := .enm .str
  (.cons (str (utf8% "A")) .unitStruct
  (.cons (str (utf8% "B")) (.strct .str (.cons (str (utf8% "x")) none none (.prim (.uint .w64)) .nil)) .nil))
@[inherit_doc kind1]
def entry1 : Ty := .strct .str
  (.cons (str (utf8% "id")) none none (.prim (.uint .w32)) (.cons (str (utf8% "kind")) none none kind1 .nil))
@[inherit_doc kind1]
def config1 : Ty := .strct .str
  (.cons (str (utf8% "name")) none none .string (.cons (str (utf8% "entries")) none none (.vec entry1) .nil))

/-- The next version:
```
struct Config { entries: Box<[Entry]>, #[musli(default)] parent: Option<u8> }
struct Entry { kind: Kind, #[musli(default, skip_encoding_if = Option::is_none)] note: Option<String>, id: u32 }
enum Kind { C, B, A { #[musli(default)] y: Option<i8> } }
``` -/
def kind2 : Ty := .enm .str
  (.cons (str (utf8% "C")) .unitStruct
  (.cons (str (utf8% "B")) .unitStruct
  (.cons (str (utf8% "A"))
    (.strct .str (.cons (str (utf8% "y")) (some 0) none (.option (.prim (.sint .w8))) .nil)) .nil)))
@[inherit_doc kind2]
def entry2 : Ty := .strct .str
  (.cons (str (utf8% "kind")) none none kind2
  (.cons (str (utf8% "note")) (some 0) (some 0) (.option .string)
  (.cons (str (utf8% "id")) none none (.prim (.uint .w32)) .nil)))
@[inherit_doc kind2]
def config2 : Ty := .strct .str
  (.cons (str (utf8% "entries")) none none (.boxed (.vec entry2))
  (.cons (str (utf8% "parent")) (some 0) none (.option (.prim (.uint .w8))) .nil))

/-- `Config { name: "n", entries: [Entry { id: 7, kind: A }, Entry { id: 8, kind: B { x: 300 } }] }`. -/
def conf1 : config1.Val :=
  (⟨utf8% "n", by decide⟩, [(7#32, .inl (), ()), (8#32, .inr (.inl (300#64, ())), ())], ())
/-- `Config { entries: [Entry { kind: A { y: None }, note: None, id: 7 },
Entry { kind: B, note: None, id: 8 }], parent: None }`. -/
def conf2 : config2.Val :=
  ([(.inr (.inr (.inl (none, ()))), none, 7#32, ()), (.inr (.inl ()), none, 8#32, ())], none, ())

/-- The first is to be read as the second. -/
theorem conf_upgrade : Upgrade env config1 config2 conf1 conf2 := by
  refine .strct (.found (e := ⟨str (utf8% "entries"), .vec entry1, conf1.2.1⟩) (.tail _ (.head _)) rfl (.box (.vec ?_))
    (.absent (by decide) rfl (.nil _)))
  refine .cons ?_ (.cons ?_ (.nil _ _))
  · refine .strct (.found (e := ⟨str (utf8% "kind"), kind1, .inl ()⟩) (.tail _ (.head _)) rfl (.enm ?_)
      (.absent (by decide) rfl
        (.found (e := ⟨str (utf8% "id"), .prim (.uint .w32), 7#32⟩) (.head _) rfl (.same _ _) (.nil _))))
    exact .there (by decide) (.there (by decide) (.here (.grow (.absent (by simp) rfl (.nil _)))))
  · refine .strct (.found (e := ⟨str (utf8% "kind"), kind1, .inr (.inl (300#64, ()))⟩) (.tail _ (.head _)) rfl (.enm ?_)
      (.absent (by decide) rfl
        (.found (e := ⟨str (utf8% "id"), .prim (.uint .w32), 8#32⟩) (.head _) rfl (.same _ _) (.nil _))))
    exact .there (by decide) (.here (.shrink _))

theorem config2_envOk : config2.envOk env := by
  simp only [config2, entry2, kind2, Ty.envOk, Fields.envOk, Variants.envOk, and_true, true_and]
  intro v
  cases v with
  | none => intro _; rfl
  | some v => intro h; cases h

end Sample

/-- The hypotheses hold. -/
example : @Supported Sample.host Sample.varOpts .wire Sample.config1 = true ∧
    @Supported Sample.host Sample.varOpts .wire Sample.config2 = true ∧
    @Supported Sample.host Sample.fixedBig .descriptive Sample.config1 = true ∧
    @Supported Sample.host Sample.fixedBig .descriptive Sample.config2 = true ∧ Opt.length Sample.varOpts = .variable ∧
    (@encode Sample.host Sample.varOpts Sample.env .wire Sample.config1 Sample.conf1).toOption.isSome ∧
    (@encode Sample.host Sample.fixedBig Sample.env .descriptive Sample.config1 Sample.conf1).toOption.isSome := by
  decide +kernel

/-- And so the new program reads what the old one wrote. -/
example (bs rest : Bytes) (he : @encode Sample.host Sample.varOpts Sample.env .wire Sample.config1 Sample.conf1 = .ok bs) :
    @decode Sample.host Sample.varOpts Sample.env .wire Sample.config2 (bs ++ rest) = .ok (Sample.conf2, rest) :=
  @C104_wire Sample.host _ _ (by decide) _ _ _ _ (by decide +kernel) (by decide +kernel) Sample.config2_envOk
    Sample.conf_upgrade bs rest he

/-- In JSON as well. -/
theorem Sample.conf1_json : Json.encode Sample.env Sample.config1 Sample.conf1 = .ok
    (utf8% "{\"name\":\"n\",\"entries\":[{\"id\":7,\"kind\":{\"A\":{}}},{\"id\":8,\"kind\":{\"B\":{\"x\":300}}}]}") := by
  decide +kernel

example : Json.decode true Sample.env Sample.config2 ((utf8%
      "{\"name\":\"n\",\"entries\":[{\"id\":7,\"kind\":{\"A\":{}}},{\"id\":8,\"kind\":{\"B\":{\"x\":300}}}]}") ++ []) =
    .ok (Sample.conf2, []) :=
  C104_json Sample.env true (by decide) (by decide) (by decide) Sample.config2_envOk Sample.conf_upgrade _ []
    Sample.conf1_json (fun _ _ h => nomatch h)

/-- The variant `B` is unknown to a program which only has `A`. -/
example : ((Variants.written (.cons (Sample.str (utf8% "A")) .unitStruct
    (.cons (Sample.str (utf8% "B")) .unitStruct .nil)) (.inr (.inl ()))).name) ∉
    (Variants.names (.cons (Sample.str (utf8% "A")) .unitStruct .nil)) := by decide

end Musli
