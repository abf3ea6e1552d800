import Verif.Proofs.Rename
import Verif.Props.Samples
/-!
# C91, C92: names of fields and variants

`#[musli(name_all = "..")]` of the derives.
-/
namespace Musli.Rename
open Spec

/-! ## C91: a rule puts the words of an identifier into the case it names -/

/-- Every rule but `index` and `name` yields the words of the identifier in the
case that the rule stands for, whatever the characters of the identifier and
whatever the tables of Unicode; `name` yields the identifier, `index` no text. -/
theorem C91_words (cc : CharCase) (r : NameAll) (ident : List Char) :
    r.apply cc ident =
      match r with
      | .index => none
      | .name => some ident
      | r => some (inCase cc r (words cc ident)) := by
  by_cases h1 : r = .index
  · subst h1; rfl
  · by_cases h2 : r = .name
    · subst h2; rfl
    · rw [apply_eq r ⟨h1, h2⟩]
      cases r <;> first | rfl | exact absurd rfl h1 | exact absurd rfl h2

/-- The words of an identifier are not empty, have no underscore, and only their
first character can be upper case; together they are the characters of the
identifier other than the underscores, in order. -/
theorem C91_words_sound (cc : CharCase) (ident : List Char) :
    (∀ w ∈ words cc ident, w ≠ [] ∧ '_' ∉ w ∧ ∀ c ∈ w.tail, cc.isUpper c = false) ∧
    (words cc ident).flatten = ident.filter (· ≠ '_') := by
  constructor
  · intro w hw
    refine ⟨words_ne ident w hw, fun h => (words_mem ident w hw '_' h).2 rfl, ?_⟩
    exact words_tail ident w hw
  · exact words_flatten ident

/-- The name of a field or variant: the attribute `#[musli(name = ..)]` comes
first; then the rule, applied to the identifier without `r#`; the index if the
rule is `index` or there is no identifier. -/
theorem C91_precedence {E : Type} (cc : CharCase) (rename : Option E) (r : NameAll)
    (ident : Option (List Char)) (index : Nat) :
    expandName cc rename r ident index =
      match rename, ident, r with
      | some e, _, _ => .expr e
      | none, none, _ => .idx index
      | none, some _, .index => .idx index
      | none, some s, .name => .lit (trimRaw s)
      | none, some s, r => .lit (inCase cc r (words cc (trimRaw s))) := by
  cases rename with
  | some e => rfl
  | none =>
    cases ident with
    | none => rfl
    | some s =>
      simp only [expandName, C91_words]
      cases r <;> rfl

/-- The rule of a container: the attribute `#[musli(name_all = ..)]`, else `name`
in the text mode and `index` in every other mode. -/
theorem C91_default (kind : Option ModeKind) (all : Option NameAll) :
    splitName kind all = all.getD (if kind = some .text then .name else .index) := by
  cases all with
  | some r => rfl
  | none =>
    cases kind with
    | none => rfl
    | some k => cases k <;> rfl

/-- The attribute accepts the eight documented values and no other. -/
theorem C91_values (s : String) (r : NameAll) :
    NameAll.parse s = some r ↔
      (s, r) ∈ [("index", NameAll.index), ("name", .name), ("PascalCase", .pascal),
        ("camelCase", .camel), ("snake_case", .snake), ("SCREAMING_SNAKE_CASE", .screamingSnake),
        ("kebab-case", .kebab), ("SCREAMING-KEBAB-CASE", .screamingKebab)] := by
  simp only [NameAll.parse, List.mem_cons, Prod.mk.injEq, List.not_mem_nil, or_false]
  constructor
  · intro h
    repeat' split at h
    all_goals first | (simp only [Option.some.injEq] at h; subst h; simp [*]) | simp at h
  · rintro (⟨rfl, rfl⟩ | ⟨rfl, rfl⟩ | ⟨rfl, rfl⟩ | ⟨rfl, rfl⟩ | ⟨rfl, rfl⟩ | ⟨rfl, rfl⟩ | ⟨rfl, rfl⟩ |
      ⟨rfl, rfl⟩) <;> decide

/-- The tables of ASCII; other characters have no case. -/
def asciiCase : CharCase where
  isUpper c := decide (AsciiUpper c)
  upper c := [upC c]
  lower c := [lowC c]

theorem asciiCase_ascii : Ascii asciiCase where
  isUpper_upper c h := by simp [asciiCase, h]
  isUpper_lower c h := by
    simp only [asciiCase, decide_eq_false_iff_not]
    exact fun hu => ((facts (.inl hu)).2.2.2.2.2.2.2.2.2.2.2.2.1 hu).1 h
  isUpper_digit c h := by
    simp only [asciiCase, decide_eq_false_iff_not]
    exact fun hu => ((facts (.inl hu)).2.2.2.2.2.2.2.2.2.2.2.2.1 hu).2 h
  lower_upper c h := by simp [asciiCase, lowC, h]
  lower_lower c h := by
    simp only [asciiCase, lowC]
    rw [if_neg (fun hu => ((facts (.inl hu)).2.2.2.2.2.2.2.2.2.2.2.2.1 hu).1 h)]
  lower_digit c h := by
    simp only [asciiCase, lowC]
    rw [if_neg (fun hu => ((facts (.inl hu)).2.2.2.2.2.2.2.2.2.2.2.2.1 hu).2 h)]
  upper_upper c h := by
    simp only [asciiCase, upC]
    rw [if_neg ((facts (.inl h)).2.2.2.2.2.2.2.2.2.2.2.2.1 h).1]
  upper_lower c h := by simp [asciiCase, upC, h]
  upper_digit c h := by
    simp only [asciiCase, upC]
    rw [if_neg (by_table (P := fun c => AsciiDigit c → ¬ AsciiLower c) digit_not_lower
      (.inr (.inr h)) h)]

/-- `"__hello__World2__"` in every case. -/
example :
    (words asciiCase "__hello__World2__".toList = ["hello".toList, "World2".toList]) ∧
    NameAll.pascal.apply asciiCase "__hello__World2__".toList = some "HelloWorld2".toList ∧
    NameAll.camel.apply asciiCase "__hello__World2__".toList = some "helloWorld2".toList ∧
    NameAll.screamingKebab.apply asciiCase "helloWorld2".toList = some "HELLO-WORLD2".toList ∧
    NameAll.snake.apply asciiCase "HTTPServer".toList = some "h_t_t_p_server".toList ∧
    expandName (E := Empty) asciiCase none .kebab (some "r#type_id".toList) 3 =
      .lit "type-id".toList := by decide +kernel

/-! ## C92: different fields of a type get different names -/

/-- The full claim: different identifiers have different names. -/
def C92Full : Prop := ∀ (cc : CharCase) (r : NameAll), Ascii cc → r ≠ .index →
  ∀ s t : List Char, AsciiIdent s → AsciiIdent t → s ≠ t → r.apply cc s ≠ r.apply cc t

/-- Two identifiers of ASCII get the same name exactly if they have the same
words but for the case of the letters; for `PascalCase` and `camelCase` this
holds of identifiers whose words begin with letters. -/
theorem C92_collision_iff (cc : CharCase) (ha : Ascii cc) (r : NameAll)
    (hr : r ≠ .index ∧ r ≠ .name) (s t : List Char) (hs : AsciiIdent s) (ht : AsciiIdent t)
    (hc : r = .pascal ∨ r = .camel →
      (∀ w ∈ words cc s, ConvWord w) ∧ (∀ w ∈ words cc t, ConvWord w)) :
    r.apply cc s = r.apply cc t ↔
      (words cc s).map (lowerWord cc) = (words cc t).map (lowerWord cc) :=
  apply_iff ha r hr hs ht hc

example : AsciiIdent "XMLHttp_request2".toList ∧
    (∀ w ∈ words asciiCase "my_Type2".toList, ConvWord w) ∧
    NameAll.snake.apply asciiCase "myType2".toList = NameAll.snake.apply asciiCase "My_type2_".toList := by
  refine ⟨?_, ?_, by decide +kernel⟩
  · unfold AsciiIdent; decide +kernel
  · have e : words asciiCase "my_Type2".toList = ["my".toList, "Type2".toList] := by decide +kernel
    rw [e]
    intro w hw
    simp only [List.mem_cons, List.not_mem_nil, or_false] at hw
    rcases hw with rfl | rfl
    · exact ⟨'m', ['y'], rfl, by decide, by decide⟩
    · exact ⟨'T', ['y', 'p', 'e', '2'], rfl, by decide, by decide⟩

/-- The fields of a struct with conventional names (`SnakeIdent`) get pairwise
different names under every rule. -/
theorem C92_fields_partial {E : Type} (cc : CharCase) (ha : Ascii cc) (r : NameAll)
    (idents : List (List Char)) (hconv : ∀ s ∈ idents, SnakeIdent (trimRaw s))
    (hdistinct : (idents.map trimRaw).Nodup) :
    (expandAll (E := E) cc r (idents.map fun s => (none, s))).Nodup :=
  expandAll_nodup cc r idents SnakeIdent (fun hr _ _ hs ht h => apply_inj_snake ha r hr hs ht h)
    hconv hdistinct

/-- The variants of an enum with conventional names (`PascalIdent`) get pairwise
different names under every rule. -/
theorem C92_variants_partial {E : Type} (cc : CharCase) (ha : Ascii cc) (r : NameAll)
    (idents : List (List Char)) (hconv : ∀ s ∈ idents, PascalIdent (trimRaw s))
    (hdistinct : (idents.map trimRaw).Nodup) :
    (expandAll (E := E) cc r (idents.map fun s => (none, s))).Nodup :=
  expandAll_nodup cc r idents PascalIdent (fun hr _ _ hs ht h => apply_inj_pascal ha r hr hs ht h)
    hconv hdistinct

/-- **C92**: with `name_all = "index"`, the default in binary modes, the fields without a name
of their own are called 0, 1, 2, … by their position, whatever their identifiers are. -/
theorem C92_index {E : Type} (cc : CharCase) (fields : List (Option E × List Char)) (i : Nat)
    (hi : i < fields.length) (h : fields[i].1 = none) :
    (expandAll cc .index fields)[i]? = some (.idx i) := by
  simp [expandAll, List.getElem?_mapIdx, List.getElem?_eq_getElem hi, expandName, h, NameAll.apply]

/-- `type_id` and `Unknown2` are conventional. -/
example : SnakeIdent (trimRaw "type_id".toList) ∧ PascalIdent (trimRaw "NotFound2".toList) := by
  refine ⟨⟨["type".toList, "id".toList], by decide, by decide, ?_⟩,
    ⟨["Not".toList, "Found2".toList], by decide, by decide, ?_⟩⟩
  · intro w hw
    simp only [List.mem_cons, List.not_mem_nil, or_false] at hw
    rcases hw with rfl | rfl
    · exact ⟨'t', ['y', 'p', 'e'], rfl, by decide, by decide⟩
    · exact ⟨'i', ['d'], rfl, by decide, by decide⟩
  · intro w hw
    simp only [List.mem_cons, List.not_mem_nil, or_false] at hw
    rcases hw with rfl | rfl
    · exact ⟨'N', ['o', 't'], rfl, by decide, by decide⟩
    · exact ⟨'F', ['o', 'u', 'n', 'd', '2'], rfl, by decide, by decide⟩

/-- Fields `kind` and `kind_` get the same name under every rule that joins
words, and so do `a1` and `a_1` under `camelCase`; the derive reports nothing. -/
theorem C92_violated (cc : CharCase) (ha : Ascii cc) :
    (∀ r : NameAll, r ≠ .index → r ≠ .name →
      r.apply cc "kind".toList = r.apply cc "kind_".toList) ∧
    NameAll.camel.apply cc "a1".toList = NameAll.camel.apply cc "a_1".toList ∧
    NameAll.camel.apply cc "a1".toList = some "a1".toList := by
  have hw : words cc "kind_".toList = words cc "kind".toList := by
    rfl
  have h1 : cc.isUpper '1' = false := ha.isUpper_digit '1' (by decide)
  have l1 : cc.lower '1' = ['1'] := ha.lower_digit '1' (by decide)
  have u1 : cc.upper '1' = ['1'] := ha.upper_digit '1' (by decide)
  have la : cc.lower 'a' = ['a'] := ha.lower_lower 'a' (by decide)
  refine ⟨fun r hr hn => ?_, ?_, ?_⟩
  · rw [apply_eq r ⟨hr, hn⟩, apply_eq r ⟨hr, hn⟩, hw]
  · rw [apply_eq _ (by decide), apply_eq _ (by decide)]
    simp [words, parts, cutBefore, inCase, capWord, lowerWord, h1, l1, u1, la]
  · rw [apply_eq _ (by decide)]
    simp [words, parts, cutBefore, inCase, lowerWord, h1, l1, la]

/-- The claim does not hold of the code as it is. -/
theorem C92_full_statement_false : ¬C92Full := by
  intro h
  refine h asciiCase .camel asciiCase_ascii (by decide) "a1".toList "a_1".toList ?_ ?_ (by decide)
    (C92_violated asciiCase asciiCase_ascii).2.1
  · unfold AsciiIdent; decide +kernel
  · unfold AsciiIdent; decide +kernel

/-- The bytes of the name that a rule gives to an identifier, as a name of the
generated code. -/
def named (r : NameAll) (s : String) : Bytes := Utf8.encode ((r.apply asciiCase s.toList).getD [])

/-- `#[musli(name_all = "kebab-case")] struct Event { kind: u32, kind_: u32 }`. -/
def event (a b : Str) : Ty := .strct .str
  (.cons (.str a) none none (.prim (.uint .w32)) (.cons (.str b) none none (.prim (.uint .w32)) .nil))

/-- The name `kind`. -/
def kindStr : Str := ⟨utf8% "kind", by decide⟩

/-- What follows from a collision: the struct is encoded without an error, and
what was written cannot be decoded. -/
theorem C92_violated_roundtrip :
    ∀ a b : Str, a.bytes = named .kebab "kind" → b.bytes = named .kebab "kind_" →
    ∃ bs, @encode Sample.host Sample.varOpts Sample.env .wire (event a b) (1#32, 2#32, ()) = .ok bs ∧
      ∃ e, @decode Sample.host Sample.varOpts Sample.env .wire (event a b) bs = .error e := by
  rintro ⟨a, ha⟩ ⟨b, hb⟩ h1 h2
  have e1 : named .kebab "kind" = utf8% "kind" := by decide +kernel
  have e2 : named .kebab "kind_" = utf8% "kind" := by decide +kernel
  simp only [e1] at h1
  simp only [e2] at h2
  subst h1
  subst h2
  show ∃ bs, @encode Sample.host Sample.varOpts Sample.env .wire (event kindStr kindStr)
    (1#32, 2#32, ()) = .ok bs ∧
      ∃ e, @decode Sample.host Sample.varOpts Sample.env .wire (event kindStr kindStr) bs = .error e
  refine ⟨[0x84#8] ++ (utf8% "Dkind") ++ [0xc1#8] ++ (utf8% "Dkind") ++ [0xc2#8],
    by decide +kernel, ?_⟩
  have h : (match @decode Sample.host Sample.varOpts Sample.env .wire (event kindStr kindStr)
      ([0x84#8] ++ (utf8% "Dkind") ++ [0xc1#8] ++ (utf8% "Dkind") ++ [0xc2#8]) with
      | .ok _ => true
      | .error _ => false) = false := by decide +kernel
  split at h
  · simp at h
  · exact ⟨_, by assumption⟩

end Musli.Rename
