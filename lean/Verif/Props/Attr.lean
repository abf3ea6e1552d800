import Verif.Proofs.Attr
/-!
# C108: attributes apply to the mode and direction they are given for

`items` are the `#[musli(..)]` attributes of a type, its variants and its fields, in the order of the
source; `expand {} items` reads them, without errors if the derive compiles.
-/
namespace Musli.Attr
variable {K M V : Type} [DecidableEq K] [DecidableEq M]

theorem sub_flatten {items : List (List (List (Meta K M V)))} {i : Nat} {as : List (List (Meta K M V))}
    (h : items[i]? = some as) : as ∈ items ∧ ∀ a ∈ as, a ∈ items.flatten := by
  have hm : as ∈ items := List.mem_of_getElem? h
  exact ⟨hm, fun a ha => List.mem_flatten.2 ⟨as, hm, ha⟩⟩

theorem one_pair (y : Path) (k k' : K) (x : V) :
    ([.mode y, .set k x] : List (Meta K M V)).filterMap (Meta.one? k') = if k = k' then [x] else [] := by
  by_cases e : k = k'
  · simp [List.filterMap_cons, Meta.one?, e]
  · simp [List.filterMap_cons, Meta.one?, e]

theorem empty_ok : Ctxt.Ok {} := fun _ _ h => nomatch h

/-- The implementations, in terms of the modes named. -/
theorem implemented_iff (items : List (List (List (Meta K M V)))) (hok : (expand {} items).1.errors = 0)
    (mode : Mode) :
    mode ∈ (builds (expand {} items).1).map ModeIdent.mode ↔
      mode = .binary ∨ mode = .text ∨
        ((items.flatten.filterMap modeOf).filter (fun m => m.kind = mode.kind)).getLast? = some mode := by
  have hw : ∀ as ∈ items, ∀ a ∈ as, ∀ m ∈ a, ¬ m.wrong := fun as h => (((expand_errors items {}).1 hok).2 as h).1
  have hn := expand_named items {} hw mode.kind
  rw [show ((({} : Ctxt).modes mode.kind).map ModeIdent.mode) = none from rfl, Option.or_none] at hn
  have hcx := expand_ok items {} empty_ok
  rw [mem_builds _ hcx, ← hn]
  constructor
  · rintro (h | ⟨_, h | h⟩)
    · exact .inr (.inr h)
    · exact .inl h
    · exact .inr (.inl h)
  · have aux : ∀ m : Mode, m = .binary ∨ m = .text → m = mode →
        ((expand {} items).1.modes mode.kind).map ModeIdent.mode = some mode ∨
          ((expand {} items).1.modes mode.kind = none ∧ (mode = .binary ∨ mode = .text)) := by
      rintro m hm rfl
      cases hc : (expand {} items).1.modes m.kind with
      | none => exact .inr ⟨rfl, hm⟩
      | some x =>
        left
        show some x.mode = some m
        have hk := hcx _ _ hc
        congr 1
        refine mode_eq_of_kind ((mode_kind x).trans hk) fun p q _ e => ?_
        rcases hm with rfl | rfl <;> cases e
    rintro (h | h | h)
    · exact aux _ (.inl rfl) h.symm
    · exact aux _ (.inr rfl) h.symm
    · exact .inl h

/-- For the mode and direction of an implementation, the value of an attribute of an item is the one
given for the mode and the direction, or else for the mode, or else for the direction, or else for
everything; from the attributes of this item only. Missing: several custom modes in one type, see
`C108_violated_custom`. -/
theorem C108_resolution_partial (items : List (List (List (Meta K M V)))) (hone : OneCustom items.flatten)
    (hok : (expand {} items).1.errors = 0) (mode : Mode)
    (hm : mode ∈ (builds (expand {} items).1).map ModeIdent.mode) (only : Only)
    (i : Nat) (as : List (List (Meta K M V))) (r : Attr K M V) (has : items[i]? = some as)
    (hr : (expand {} items).2[i]? = some r) :
    (∀ k, r.one mode.kind only k = (effective (given as · · k) mode only).head?) ∧
    (∀ k, r.many mode.kind only k = effective (added as · · k) mode only) := by
  obtain ⟨as', cx', h1, rfl⟩ := expand_get items {} i r hr
  cases has.symm.trans h1
  have hw := (((expand_errors items {}).1 hok).2 as (sub_flatten has).1).1
  have hn : ∀ p, mode = .custom p → Named items.flatten mode := by
    intro p e
    rcases (implemented_iff items hok mode).1 hm with h | h | h
    · rw [e] at h; cases h
    · rw [e] at h; cases h
    · have := List.mem_of_getLast? h
      rw [List.mem_filter, List.mem_filterMap] at this
      exact this.1
  refine ⟨fun k => ?_, fun k => ?_⟩
  · rw [item_one cx' as hw, givenK_none, givenK_none, givenK_some hone hn (sub_flatten has).2,
      givenK_some hone hn (sub_flatten has).2]
    rfl
  · rw [item_many cx' as hw, addedK_none, addedK_none, addedK_some hone hn (sub_flatten has).2,
      addedK_some hone hn (sub_flatten has).2]
    rfl

/-- Every item of the source has its attributes. -/
theorem C108_items (items : List (List (List (Meta K M V)))) (cx : Ctxt) :
    (expand cx items).2.length = items.length := by
  induction items generalizing cx with
  | nil => rfl
  | cons as items ih => exact congrArg (· + 1) (ih _)

/-- The derive reports an error if and only if an element is not an attribute, or a value is given
twice for the same mode and direction of an item. Missing: several custom modes, for which only the
first direction holds, see `C108_violated_twice`. -/
theorem C108_errors_partial (items : List (List (List (Meta K M V)))) (hone : ∀ as ∈ items, OneCustom as) :
    (expand {} items).1.errors = 0 ↔ ∀ as ∈ items, Valid as := by
  rw [expand_errors]
  constructor
  · rintro ⟨_, h⟩ as ha
    exact ⟨(h as ha).1, fun mode o k => Nat.le_trans (given_le as mode o k) ((h as ha).2 _ o k)⟩
  · intro h
    refine ⟨rfl, fun as ha => ⟨(h as ha).1, fun κ o k => ?_⟩⟩
    rcases givenK_mode (hone as ha) κ o k with e | ⟨mode, e⟩
    · rw [e]; exact Nat.zero_le _
    · rw [e]; exact (h as ha).2 mode o k

/-- Whatever compiles is valid. -/
theorem C108_sound (items : List (List (List (Meta K M V)))) (hok : (expand {} items).1.errors = 0) :
    ∀ as ∈ items, Valid as := by
  have h := ((expand_errors items {}).1 hok).2
  exact fun as ha =>
    ⟨(h as ha).1, fun mode o k => Nat.le_trans (given_le as mode o k) ((h as ha).2 _ o k)⟩

/-- There is exactly one implementation for the binary mode, for the text mode and for every mode
named anywhere in the type. Missing: several custom modes, see `C108_violated_custom`. -/
theorem C108_implemented_partial (items : List (List (List (Meta K M V)))) (hone : OneCustom items.flatten)
    (hok : (expand {} items).1.errors = 0) :
    ((builds (expand {} items).1).map ModeIdent.mode).Nodup ∧
    ∀ mode, mode ∈ (builds (expand {} items).1).map ModeIdent.mode ↔
      mode = .binary ∨ mode = .text ∨ Named items.flatten mode := by
  constructor
  · have h := builds_nodup _ (expand_ok items {} empty_ok)
    have e : (builds (expand {} items).1).map ModeIdent.kind =
        ((builds (expand {} items).1).map ModeIdent.mode).map Mode.kind := by
      rw [List.map_map]
      congr 1
      funext m
      exact (mode_kind m).symm
    rw [e] at h
    refine List.Pairwise.of_map Mode.kind ?_ h
    intro a b hne e
    exact hne (by rw [e])
  · intro mode
    rw [implemented_iff items hok]
    constructor
    · rintro (h | h | h)
      · exact .inl h
      · exact .inr (.inl h)
      · have := List.mem_of_getLast? h
        rw [List.mem_filter, List.mem_filterMap] at this
        exact .inr (.inr this.1)
    · rintro (h | h | ⟨a, ha, hm⟩)
      · exact .inl h
      · exact .inr (.inl h)
      · right; right
        cases hl : ((items.flatten.filterMap modeOf).filter (fun m => m.kind = mode.kind)).getLast? with
        | none =>
          rw [List.getLast?_eq_none_iff] at hl
          have : mode ∈ (items.flatten.filterMap modeOf).filter (fun m => m.kind = mode.kind) :=
            List.mem_filter.2 ⟨List.mem_filterMap.2 ⟨a, ha, hm⟩, by simp⟩
          rw [hl] at this
          cases this
        | some n =>
          have := List.mem_of_getLast? hl
          rw [List.mem_filter, List.mem_filterMap] at this
          obtain ⟨⟨b, hb, hn⟩, hk⟩ := this
          rw [mode_eq_of_kind (of_decide_eq_true hk)]
          intro p q e1 e2
          exact hone b hb a ha p q (by rw [hn, e1]) (by rw [hm, e2])

/-- An attribute for another mode changes nothing: the attributes before and after it mean the same
without it, for every mode which is not of its kind. -/
theorem C108_isolated (cx cx' : Ctxt) (before after : List (List (Meta K M V))) (a : List (Meta K M V)) (n : Mode)
    (hn : modeOf a = some n) (mode : Mode) (hk : mode.kind ≠ n.kind)
    (hw : ∀ b ∈ before ++ a :: after, ∀ m ∈ b, ¬ m.wrong) (only : Only) :
    (∀ k, (itemAttrs cx (before ++ a :: after)).2.one mode.kind only k =
      (itemAttrs cx' (before ++ after)).2.one mode.kind only k) ∧
    (∀ k, (itemAttrs cx (before ++ a :: after)).2.many mode.kind only k =
      (itemAttrs cx' (before ++ after)).2.many mode.kind only k) := by
  have hw' : ∀ b ∈ before ++ after, ∀ m ∈ b, ¬ m.wrong := by
    intro b hb
    refine hw b ?_
    rw [List.mem_append] at hb ⊢
    exact hb.imp id (fun h => by simp [h])
  have hka : kindOf a = some n.kind := by rw [kindOf, hn]; rfl
  have h1 : ¬ kindOf a = some mode.kind := by
    rw [hka]; intro e; exact hk (Option.some.inj e).symm
  have h2 : ¬ kindOf a = none := by rw [hka]; intro e; cases e
  refine ⟨fun k => ?_, fun k => ?_⟩
  · rw [item_one cx _ hw, item_one cx' _ hw']
    have e : ∀ κ o, ¬ kindOf a = κ → givenK (before ++ a :: after) κ o k = givenK (before ++ after) κ o k := by
      intro κ o h
      unfold givenK
      rw [List.flatMap_append, List.flatMap_cons, if_neg (fun x => h x.1), List.flatMap_append]
      rfl
    rw [e _ _ h1, e _ _ h1, e _ _ h2, e _ _ h2]
  · rw [item_many cx _ hw, item_many cx' _ hw']
    have e : ∀ κ o, ¬ kindOf a = κ → addedK (before ++ a :: after) κ o k = addedK (before ++ after) κ o k := by
      intro κ o h
      unfold addedK
      rw [List.flatMap_append, List.flatMap_cons, if_neg (fun x => h x.1), List.flatMap_append]
      rfl
    rw [e _ _ h1, e _ _ h1, e _ _ h2, e _ _ h2]

/-- Violation: of two custom modes named in a type, one has no implementation, whatever else the
attributes are; and there is no error. -/
theorem C108_violated_custom (items : List (List (List (Meta K M V)))) (hok : (expand {} items).1.errors = 0)
    (p q : Path) (hp : Named items.flatten (.custom p)) (hq : Named items.flatten (.custom q)) (hne : p ≠ q) :
    ∃ mode, Named items.flatten mode ∧ mode ∉ (builds (expand {} items).1).map ModeIdent.mode := by
  by_cases h : Mode.custom p ∈ (builds (expand {} items).1).map ModeIdent.mode
  · refine ⟨.custom q, hq, fun h' => ?_⟩
    rw [implemented_iff items hok] at h h'
    replace h := (h.resolve_left (fun e => by cases e)).resolve_left (fun e => by cases e)
    replace h' := (h'.resolve_left (fun e => by cases e)).resolve_left (fun e => by cases e)
    have := h.symm.trans h'
    exact hne (by cases this; rfl)
  · exact ⟨.custom p, hp, h⟩

/-- Violation: the implementation for a custom mode uses what is given for another one. -/
theorem C108_violated_mixed (p q : Path) (hp : Mode.named p = .custom p) (hq : Mode.named q = .custom q)
    (hne : p ≠ q) (k : K) (v : V) (only : Only) :
    ∃ (items : List (List (List (Meta K M V)))) (as : _) (r : Attr K M V),
      (expand {} items).1.errors = 0 ∧ items[0]? = some as ∧ (expand {} items).2[0]? = some r ∧
      Mode.custom q ∈ (builds (expand {} items).1).map ModeIdent.mode ∧
      effective (given as · · k) (.custom q) only = [] ∧
      r.one (Mode.custom q).kind only k = some v := by
  let a : List (Meta K M V) := [.mode p, .set k v]
  let b : List (Meta K M V) := [.mode q]
  have ha : modeOf a = some (.custom p) := congrArg some hp
  have hb : modeOf b = some (.custom q) := congrArg some hq
  have hw : ∀ c ∈ [a, b], ∀ m ∈ c, ¬ m.wrong := by
    intro c hc m hm
    simp only [a, b, List.mem_cons, List.not_mem_nil, or_false] at hc
    rcases hc with rfl | rfl
    · simp only [List.mem_cons, List.not_mem_nil, or_false] at hm
      rcases hm with rfl | rfl <;> exact fun h => h
    · simp only [List.mem_cons, List.not_mem_nil, or_false] at hm
      rcases hm with rfl; exact fun h => h
  have hone : ∀ k', a.filterMap (Meta.one? k') = if k = k' then [v] else [] := fun k' => one_pair p k k' v
  have hnone : ∀ k', b.filterMap (Meta.one? k') = [] := fun _ => rfl
  have hgK : ∀ κ o k', givenK [a, b] κ o k' = if kindOf a = κ ∧ onlyOf a = o then a.filterMap (Meta.one? k') else [] := by
    intro κ o k'
    unfold givenK
    rw [List.flatMap_cons, List.flatMap_cons, hnone]
    simp
  have hg : ∀ κ o, given [a, b] κ o k = if modeOf a = κ ∧ onlyOf a = o then a.filterMap (Meta.one? k) else [] := by
    intro κ o
    unfold given
    rw [List.flatMap_cons, List.flatMap_cons, hnone]
    simp
  have hok : (expand {} [[a, b]]).1.errors = 0 := by
    rw [expand_errors]
    refine ⟨rfl, fun as has => ?_⟩
    simp only [List.mem_cons, List.not_mem_nil, or_false] at has
    subst has
    refine ⟨hw, fun κ o k' => ?_⟩
    rw [hgK, hone]
    split
    · split <;> simp
    · simp
  refine ⟨[[a, b]], [a, b], (itemAttrs {} [a, b]).2, hok, rfl, rfl, ?_, ?_, ?_⟩
  · rw [implemented_iff _ hok]
    right; right
    simp [ha, hb, Mode.kind]
  · unfold effective
    simp only [hg, ha]
    simp [hne, firstOf]
  · rw [item_one {} _ hw]
    simp only [hgK]
    have hka : kindOf a = some .custom := by rw [kindOf, ha]; rfl
    have hoa : onlyOf a = none := rfl
    rw [hka, hoa, hone]
    simp [Mode.kind, firstOf]

/-- Violation: the same attribute cannot be given for two custom modes; this is an error. -/
theorem C108_violated_twice (p q : Path) (hp : Mode.named p = .custom p) (hq : Mode.named q = .custom q)
    (hne : p ≠ q) (k : K) (v w : V) :
    Valid ([[.mode p, .set k v], [.mode q, .set k w]] : List (List (Meta K M V))) ∧
    (expand {} ([[[.mode p, .set k v], [.mode q, .set k w]]] : List (List (List (Meta K M V))))).1.errors ≠ 0 := by
  have ha : modeOf ([.mode p, .set k v] : List (Meta K M V)) = some (.custom p) := congrArg some hp
  have hb : modeOf ([.mode q, .set k w] : List (Meta K M V)) = some (.custom q) := congrArg some hq
  refine ⟨⟨?_, ?_⟩, ?_⟩
  · intro c hc m hm
    simp only [List.mem_cons, List.not_mem_nil, or_false] at hc
    rcases hc with rfl | rfl
    · simp only [List.mem_cons, List.not_mem_nil, or_false] at hm
      rcases hm with rfl | rfl <;> exact fun h => h
    · simp only [List.mem_cons, List.not_mem_nil, or_false] at hm
      rcases hm with rfl | rfl <;> exact fun h => h
  · intro mode o k'
    unfold given
    rw [List.flatMap_cons, List.flatMap_cons, ha, hb]
    have l1 : ∀ x : V, ∀ y : Path, (([.mode y, .set k x] : List (Meta K M V)).filterMap (Meta.one? k')).length ≤ 1 := by
      intro x y
      rw [one_pair]
      split <;> simp
    by_cases h1 : some (Mode.custom p) = mode
    · have h2 : ¬ some (Mode.custom q) = mode := by
        rw [← h1]; intro e; exact hne (by cases e; rfl)
      rw [if_neg (c := some (Mode.custom q) = mode ∧ _) (fun x => h2 x.1)]
      simp only [List.flatMap_nil, List.append_nil]
      split
      · exact l1 v p
      · exact Nat.zero_le _
    · rw [if_neg (fun x => h1 x.1)]
      simp only [List.flatMap_nil, List.append_nil, List.nil_append]
      split
      · exact l1 w q
      · exact Nat.zero_le _
  · rw [Ne, expand_errors]
    rintro ⟨_, h⟩
    have := (h _ (List.mem_singleton.2 rfl)).2 (some .custom) none k
    unfold givenK at this
    rw [List.flatMap_cons, List.flatMap_cons, kindOf, kindOf, ha, hb] at this
    rw [one_pair, one_pair, if_pos rfl, if_pos rfl, if_pos ⟨rfl, rfl⟩, if_pos ⟨rfl, rfl⟩] at this
    simp at this

/-- Violation of "if a mode is not specified, an implementation will apply to all modes": without a
mode there are implementations for the binary and the text mode, and for no custom one. -/
theorem C108_violated_default (items : List (List (List (Meta K M V)))) (hok : (expand {} items).1.errors = 0)
    (hno : ∀ a ∈ items.flatten, modeOf a = none) (p : Path) :
    Mode.custom p ∉ (builds (expand {} items).1).map ModeIdent.mode := by
  rw [implemented_iff items hok]
  rintro (h | h | h)
  · cases h
  · cases h
  · have := List.mem_of_getLast? h
    rw [List.mem_filter, List.mem_filterMap] at this
    obtain ⟨⟨a, ha, hm⟩, _⟩ := this
    rw [hno a ha] at hm
    cases hm

end Musli.Attr

namespace Musli.Attr.Examples
open Musli.Attr

/-- A struct with two fields:
`#[musli(name_all = "index")] #[musli(mode = Json, name_all = "camelCase")]`,
`#[musli(Text, name = "b")] #[musli(encode_only, Text, name = "c", bound)]`, and none. -/
def items : List (List (List (Meta String String String))) :=
  [[[.set "name_all" "index"], [.mode ["crate", "Json"], .set "name_all" "camelCase"]],
   [[.word "Text", .set "name" "b"], [.encodeOnly, .word "Text", .set "name" "c", .add "bound" "T"]],
   []]

example : (expand {} items).1.errors = 0 := by decide +kernel
example : (builds (expand {} items).1).map ModeIdent.mode =
    [.custom ["crate", "Json"], .binary, .text] ∨
    (builds (expand {} items).1).map ModeIdent.mode =
    [.text, .custom ["crate", "Json"], .binary] := by decide +kernel
example : OneCustom items.flatten := by
  intro a ha b hb p q h1 h2
  have e : ∀ c ∈ items.flatten, ∀ r, modeOf c = some (.custom r) → r = ["crate", "Json"] := by
    intro c hc r
    simp only [items, List.flatten_cons, List.flatten_nil, List.cons_append, List.nil_append, List.append_nil,
      List.mem_cons, List.not_mem_nil, or_false] at hc
    rcases hc with rfl | rfl | rfl | rfl <;> simp [modeOf, List.filterMap_cons, Meta.mode?, Mode.named]
    exact Eq.symm
  rw [e a ha p h1, e b hb q h2]
example : ((expand {} items).2[0]?.map fun r => r.one .custom .encode "name_all") = some (some "camelCase") := by
  decide +kernel
example : ((expand {} items).2[0]?.map fun r => r.one .text .encode "name_all") = some (some "index") := by
  decide +kernel
example : ((expand {} items).2[1]?.map fun r => r.one .text .encode "name") = some (some "c") := by decide +kernel
example : ((expand {} items).2[1]?.map fun r => r.one .text .decode "name") = some (some "b") := by decide +kernel
example : ((expand {} items).2[1]?.map fun r => r.one .binary .decode "name") = some none := by decide +kernel
example : ((expand {} items).2[1]?.map fun r => r.many .text .encode "bound") = some ["T"] := by decide +kernel
example : ((expand {} items).2[1]?.map fun r => r.many .text .decode "bound") = some [] := by decide +kernel

/-- Two custom modes: the first one is lost, and its name goes to the second. -/
def two : List (List (List (Meta String String String))) :=
  [[[.mode ["A"], .set "name_all" "name"], [.mode ["B"], .set "transparent" ""]]]

example : (expand {} two).1.errors = 0 ∧
    (builds (expand {} two).1).map ModeIdent.mode = [.custom ["B"], .binary, .text] ∧
    ((expand {} two).2[0]?.map fun r => r.one .custom .encode "name_all") = some (some "name") := by decide +kernel

/-- The binary mode by its full path is a custom mode for the derive: there are two implementations
for it, which do not compile. -/
example : (builds (expand {} [[[(.mode ["musli", "mode", "Binary"] : Meta String String String)]]]).1).map
    ModeIdent.mode = [.custom ["musli", "mode", "Binary"], .binary, .text] := by decide +kernel

/-- `C108_isolated`, instantiated. -/
example := C108_isolated (K := String) (M := String) (V := String) {} {}
  [[.set "name" "a"]] [] [.word "Text", .set "name" "b"] .text rfl .binary (by decide)
  (by
    intro b hb m hm
    simp only [List.cons_append, List.nil_append, List.mem_cons, List.not_mem_nil, or_false] at hb
    rcases hb with rfl | rfl
    · simp only [List.mem_cons, List.not_mem_nil, or_false] at hm
      rcases hm with rfl; exact fun h => h
    · simp only [List.mem_cons, List.not_mem_nil, or_false] at hm
      rcases hm with rfl | rfl
      · exact fun h => h.2 rfl
      · exact fun h => h) .encode
example := C108_violated_custom two (by decide +kernel) ["A"] ["B"] ⟨_, List.mem_cons_self, by decide +kernel⟩
  ⟨_, List.mem_cons_of_mem _ List.mem_cons_self, by decide +kernel⟩ (by decide)
example := C108_violated_mixed (K := String) (M := String) (V := String) ["A"] ["B"] rfl rfl (by decide) "name" "x" .encode
example := C108_violated_twice (K := String) (M := String) (V := String) ["A"] ["B"] rfl rfl (by decide) "name" "x" "y"
example := C108_violated_default (K := String) (M := String) (V := String) [[[.set "name" "x"]]] (by decide +kernel)
  (by
    intro a ha
    simp only [List.flatten_cons, List.flatten_nil, List.append_nil, List.mem_cons, List.not_mem_nil, or_false] at ha
    subst ha; rfl) ["A"]
end Musli.Attr.Examples
