import Verif.Model.Calls
/-!
# What calls to an encoder say

`Says env t v c`: the calls `c` describe the value `v` of the type `t`, the way its derived or
built-in implementation describes it: the same structure, with the numbers of elements
and entries which are really written. How the elements get into a sequence
(one by one, as slices, as several slices), how the entries get into a map
and which of several equivalent methods opens it is free.

`Call.honest`: without any type, all announced numbers are right.
-/
namespace Musli

/-- The calls which write a name: a number or a string. -/
inductive SaysName : Name → Call → Prop
  | idx {n} : SaysName (.idx n) (.value (.prim .usize) n)
  | str {s} : SaysName (.str s) (.value .string s)
  | idxDirect {n} : SaysName (.idx n) (.direct (.prim .usize) n)
  | strDirect {s} : SaysName (.str s) (.direct .string s)

/-- The argument of the methods which take the tag of a variant. -/
inductive TagOf : Name → (t : Ty) → t.Val → Prop
  | idx {n} : TagOf (.idx n) (.prim .usize) n
  | str {s} : TagOf (.str s) .string s

mutual

/-- The calls describe the value. -/
inductive Says (env : Env) : (t : Ty) → t.Val → Call → Prop
  | value {t v} : Says env t v (.value t v)
  | direct {t v} : Says env t v (.direct t v)
  | vectored {b len parts} : parts.flatten = b → len = b.length →
    Says env .bytes b (.vectored len parts)
  | empty {v} : Says env .unit v .empty
  | none {t} : Says env (.option t) (none : Option t.Val) .none
  | some {t x c} : Says env t x c → Says env (.option t) (some x : Option t.Val) (.some c)
  | slice {t} {l : List t.Val} : Says env (.vec t) l (.slice t l)
  | sliceArray {n t v} : Says env (.array n t) v (.slice t v.1)
  | slices {t} {l : List t.Val} {len ls} : ls.flatten = l → len = l.length →
    Says env (.vec t) l (.slices t len ls)
  | vec {t} {l : List t.Val} {n items} : SaysItems env t l items → n = l.length →
    Says env (.vec t) l (.sequence (.some n) items)
  | array {n t v items} : SaysItems env t v.1 items →
    Says env (.array n t) v (.sequence (.some n) items)
  | set {t} {l : List t.Val} {n items} : SaysItems env t l items → n = l.length →
    Says env (.set t) l (.sequence (.some n) items)
  | tuple {ts v n items} : SaysTys env ts v items → n = ts.length →
    Says env (.tuple ts) v (.sequence (.some n) items)
  | map {k t} {l : List (k.Val × t.Val)} {n es} : SaysMap env k t l es → n = l.length →
    Says env (.map k t) l (.map (.some n) es)
  | entries {k t} {l : List (k.Val × t.Val)} {n es} : SaysMap env k t l es → n = l.length →
    Says env (.map k t) l (.entries (.some n) es)
  | ok {nt t u x tag data} : SaysName (resultName nt true) tag → Says env t x data →
    Says env (.result nt t u) (.inl x : t.Val ⊕ u.Val) (.variant tag data)
  | err {nt t u x tag data} : SaysName (resultName nt false) tag → Says env u x data →
    Says env (.result nt t u) (.inr x : t.Val ⊕ u.Val) (.variant tag data)
  | boxed {t} {v : t.Val} {c} : Says env t v c → Says env (.boxed t) v c
  | wrapping {t} {v : t.Val} {c} : Says env t v c → Says env (.wrapping t) v c
  | transparent {t} {v : t.Val} {c} : Says env t v c → Says env (.transparent t) v c
  | unitStruct {v} : Says env .unitStruct v (.map (.some 0) .done)
  | strct {nt fs} {v : fs.Val} {n es} : SaysFields env fs v n es →
    Says env (.strct nt fs) v (.map (.some n) es)
  | strctEntries {nt fs} {v : fs.Val} {n es} : SaysFields env fs v n es →
    Says env (.strct nt fs) v (.entries (.some n) es)
  | packed {lay fs} {v : fs.Val} {items} : SaysPack env fs v items →
    Says env (.packed lay fs) v (.pack items)
  | unitEnum {nt names v c} : SaysName names[v] c → Says env (.unitEnum nt names) v c
  | enm {nt vs} {v : vs.Val} {c} : SaysVariant env vs v c → Says env (.enm nt vs) v c

/-- The items are the elements. -/
inductive SaysItems (env : Env) : (t : Ty) → List t.Val → Items → Prop
  | done {t} : SaysItems env t [] .done
  | push {t x l c rest} : Says env t x c → SaysItems env t l rest →
    SaysItems env t (x :: l) (.push c rest)
  | slice {t l l' rest} : SaysItems env t l' rest → SaysItems env t (l ++ l') (.slice t l rest)
  | slices {t ls l' rest} : SaysItems env t l' rest →
    SaysItems env t (ls.flatten ++ l') (.slices t ls rest)

/-- The items are the elements of a tuple. -/
inductive SaysTys (env : Env) : (ts : Tys) → ts.Val → Items → Prop
  | done : SaysTys env .nil () .done
  | push {t ts} {x : t.Val} {v : ts.Val} {c rest} : Says env t x c → SaysTys env ts v rest →
    SaysTys env (.cons t ts) (x, v) (.push c rest)

/-- The entries are those of the map. -/
inductive SaysMap (env : Env) : (k t : Ty) → List (k.Val × t.Val) → Calls → Prop
  | done {k t} : SaysMap env k t [] .done
  | entry {k t a x l key value rest} : Says env k a key → Says env t x value →
    SaysMap env k t l rest → SaysMap env k t ((a, x) :: l) (.entry key value rest)

/-- The entries are the `n` fields which are to be written. -/
inductive SaysFields (env : Env) : (fs : Fields) → fs.Val → Nat → Calls → Prop
  | done : SaysFields env .nil () 0 .done
  | entry {name d skip t fs} {x : t.Val} {v : fs.Val} {n key value rest} :
    fieldPresent env skip t x = true → SaysName name key → Says env t x value →
    SaysFields env fs v n rest →
    SaysFields env (.cons name d skip t fs) (x, v) (n + 1) (.entry key value rest)
  | skip {name d skip t fs} {x : t.Val} {v : fs.Val} {n rest} :
    fieldPresent env skip t x = false → SaysFields env fs v n rest →
    SaysFields env (.cons name d skip t fs) (x, v) n rest

/-- The items are the fields which are to be written. -/
inductive SaysPack (env : Env) : (fs : Fields) → fs.Val → Items → Prop
  | done : SaysPack env .nil () .done
  | push {name d skip t fs} {x : t.Val} {v : fs.Val} {c rest} :
    fieldPresent env skip t x = true → Says env t x c → SaysPack env fs v rest →
    SaysPack env (.cons name d skip t fs) (x, v) (.push c rest)
  | skip {name d skip t fs} {x : t.Val} {v : fs.Val} {rest} :
    fieldPresent env skip t x = false → SaysPack env fs v rest →
    SaysPack env (.cons name d skip t fs) (x, v) rest

/-- The calls describe the variant. One with `skip_encoding_if` fields is written with a wrong number of
entries, which no such calls do. -/
inductive SaysVariant (env : Env) : (vs : Variants) → vs.Val → Call → Prop
  | here {name t vs} {x : t.Val} {tag data} : t.dynamic = false → SaysName name tag → Says env t x data →
    SaysVariant env (.cons name t vs) (.inl x : t.Val ⊕ vs.Val) (.variant tag data)
  | sequence {name t vs} {x : t.Val} {s} {tag : s.Val} {hint items} : t.dynamic = false → TagOf name s tag →
    Says env t x (.sequence hint items) →
    SaysVariant env (.cons name t vs) (.inl x : t.Val ⊕ vs.Val) (.sequenceVariant s tag hint items)
  | map {name t vs} {x : t.Val} {s} {tag : s.Val} {hint es} : t.dynamic = false → TagOf name s tag →
    Says env t x (.map hint es) →
    SaysVariant env (.cons name t vs) (.inl x : t.Val ⊕ vs.Val) (.mapVariant s tag hint es)
  | there {name t vs} {x : vs.Val} {c} : SaysVariant env vs x c →
    SaysVariant env (.cons name t vs) (.inr x : t.Val ⊕ vs.Val) c

end

/-! ## Without types -/

/-- The number of items. -/
def Items.count : Items → Nat
  | .done => 0
  | .push _ rest => rest.count + 1
  | .slice _ l rest => l.length + rest.count
  | .slices _ ls rest => ls.flatten.length + rest.count

/-- The number of entries. -/
def Calls.count : Calls → Nat
  | .done => 0
  | .entry _ _ rest => rest.count + 1

mutual

/-- All announced numbers are right. What is inside of a pack does not matter. -/
def Call.honest : Call → Prop
  | .vectored len parts => len = parts.flatten.length
  | .some c => c.honest
  | .slices _ len ls => len = ls.flatten.length
  | .sequence hint items => hint = .some items.count ∧ items.honest
  | .map hint es => hint = .some es.count ∧ es.honest
  | .entries hint es => hint = .some es.count ∧ es.honest
  | .variant tag data => tag.honest ∧ data.honest
  | .sequenceVariant _ _ hint items => hint = .some items.count ∧ items.honest
  | .mapVariant _ _ hint es => hint = .some es.count ∧ es.honest
  | _ => True

/-- As above. -/
def Items.honest : Items → Prop
  | .done => True
  | .push c rest => c.honest ∧ rest.honest
  | .slice _ _ rest => rest.honest
  | .slices _ _ rest => rest.honest

/-- As above. -/
def Calls.honest : Calls → Prop
  | .done => True
  | .entry key value rest => key.honest ∧ value.honest ∧ rest.honest

end

mutual

/-- All values which are passed are of types with the property. What is inside of a pack does not matter. -/
def Call.types (p : Ty → Bool) : Call → Bool
  | .value t _ => p t
  | .direct t _ => p t
  | .some c => c.types p
  | .slice t _ => p t
  | .slices t _ _ => p t
  | .sequence _ items => items.types p
  | .map _ es => es.types p
  | .entries _ es => es.types p
  | .variant tag data => tag.types p && data.types p
  | .sequenceVariant t _ _ items => p t && items.types p
  | .mapVariant t _ _ es => p t && es.types p
  | _ => true

/-- As above. -/
def Items.types (p : Ty → Bool) : Items → Bool
  | .done => true
  | .push c rest => c.types p && rest.types p
  | .slice t _ rest => p t && rest.types p
  | .slices t _ rest => p t && rest.types p

/-- As above. -/
def Calls.types (p : Ty → Bool) : Calls → Bool
  | .done => true
  | .entry key value rest => key.types p && value.types p && rest.types p

end

mutual

/-- The same calls without any announced number. -/
def Call.forget : Call → Call
  | .some c => .some c.forget
  | .vectored _ parts => .vectored 0 parts
  | .slices t _ ls => .slices t 0 ls
  | .sequence _ items => .sequence .none items.forget
  | .map _ es => .map .none es.forget
  | .entries _ es => .entries .none es.forget
  | .variant tag data => .variant tag.forget data.forget
  | .sequenceVariant t tag _ items => .sequenceVariant t tag .none items.forget
  | .mapVariant t tag _ es => .mapVariant t tag .none es.forget
  | .pack items => .pack items.forget
  | .value t v => .value t v
  | .direct t v => .direct t v
  | .empty => .empty
  | .none => .none
  | .slice t l => .slice t l

/-- As above. -/
def Items.forget : Items → Items
  | .done => .done
  | .push c rest => .push c.forget rest.forget
  | .slice t l rest => .slice t l rest.forget
  | .slices t ls rest => .slices t ls rest.forget

/-- As above. -/
def Calls.forget : Calls → Calls
  | .done => .done
  | .entry key value rest => .entry key.forget value.forget rest.forget

end
end Musli
