import Verif.Spec.Supported
/-!
# Concrete types, values and options used in examples
-/
namespace Musli

/-- The UTF-8 bytes of a string literal, as a list of numerals, for examples only. -/
macro "utf8% " s:str : term => do
  let bs ← s.getString.toUTF8.toList.mapM fun b => `(BitVec.ofNat 8 $(Lean.quote b.toNat))
  `(([$(bs.toArray),*] : Bytes))

namespace Sample

/-- A little-endian host, for the examples only. -/
@[instance_reducible] def host : Host := ⟨.little⟩

/-- `#[musli(default, skip_encoding_if = Option::is_none)]`. -/
def env : Env where
  dflt := fun _ t => match t with
    | .option _ => some none
    | _ => none
  skipIf := fun _ t v => match t, v with
    | .option _, none => true
    | _, _ => false

/-- The default options of storage and wire: `options::new().build()`. -/
def varOpts : Options := Opt.new
/-- `options::new().fixed().byte_order(Big).build()`. -/
def fixedBig : Options := Opt.setByteOrder (Opt.setFixed Opt.new) .big
/-- The options of the packed format on `host`:
`options::new().fixed().native_byte_order().build()`. -/
def nativeOpts : Options := Opt.setByteOrder (Opt.setFixed Opt.new) .little

/-- ```
struct Person {
    name: String,
    #[musli(default, skip_encoding_if = Option::is_none)] age: Option<u32>,
    tags: Vec<(i16, bool)>,
    map: BTreeMap<char, Kind>,
}
enum Kind { A, B { x: u64 } }
``` -/
def kind : Ty := .enm .idx
  (.cons (.idx 0) .unitStruct
  (.cons (.idx 1) (.strct .idx (.cons (.idx 0) none none (.prim (.uint .w64)) .nil)) .nil))

@[inherit_doc kind]
def person : Ty := .strct .idx
  (.cons (.idx 0) none none .string
  (.cons (.idx 1) (some 0) (some 0) (.option (.prim (.uint .w32)))
  (.cons (.idx 2) none none (.vec (.tuple (.cons (.prim (.sint .w16)) (.cons (.prim .bool) .nil))))
  (.cons (.idx 3) none none (.map (.prim .char) kind) .nil))))

/-- `Person { name: "é", age: None, tags: [(-2, true)], map: { 'x' => A, 'y' => B { x: 300 } } }`. -/
def bob : person.Val :=
  (⟨[0xC3#8, 0xA9#8], by decide⟩, none, [((-2 : BitVec 16), true, ())],
    [('x', .inl ()), ('y', .inr (.inl (300#64, ())))], ())

theorem person_envOk : person.envOk env := by
  simp only [person, kind, Ty.envOk, Fields.envOk, Tys.envOk, Variants.envOk, and_true, true_and]
  intro v
  cases v with
  | none => intro _; rfl
  | some v => intro h; cases h

/-! ## JSON -/

/-- A name made of ASCII letters. -/
def str (b : Bytes) (h : Utf8.valid b = true := by decide) : Name := .str ⟨b, h⟩

/-- ```
enum Level { Low, High { x: u64 } }
struct Account {
    name: String,
    #[musli(default, skip_encoding_if = Option::is_none)] age: Option<u32>,
    tags: Vec<(i16, bool)>,
    map: BTreeMap<String, Level>,
}
``` -/
def level : Ty := .enm .str
  (.cons (str (utf8% "Low")) .unitStruct
  (.cons (str (utf8% "High"))
    (.strct .str (.cons (str (utf8% "x")) none none (.prim (.uint .w64)) .nil)) .nil))

@[inherit_doc level]
def account : Ty := .strct .str
  (.cons (str (utf8% "name")) none none .string
  (.cons (str (utf8% "age")) (some 0) (some 0) (.option (.prim (.uint .w32)))
  (.cons (str (utf8% "tags")) none none
    (.vec (.tuple (.cons (.prim (.sint .w16)) (.cons (.prim .bool) .nil))))
  (.cons (str (utf8% "map")) none none (.map .string level) .nil))))

/-- `Account { name: "é\n", age: None, tags: [(-2, true)], map: { "a" => Low, "b" => High { x: 300 } } }`. -/
def ann : account.Val :=
  (⟨utf8% "é\n", by decide⟩, none, [((-2 : BitVec 16), true, ())],
    [(⟨utf8% "a", by decide⟩, .inl ()), (⟨utf8% "b", by decide⟩, .inr (.inl (300#64, ())))], ())

theorem account_envOk : account.envOk env := by
  simp only [account, level, Ty.envOk, Fields.envOk, Tys.envOk, Variants.envOk, and_true, true_and]
  intro v
  cases v with
  | none => intro _; rfl
  | some v => intro h; cases h

end Sample
end Musli
