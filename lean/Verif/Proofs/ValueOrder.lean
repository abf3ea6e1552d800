import Verif.Proofs.ValueCmp
/-!
# Proofs about the comparison of values: the recursion
-/
set_option linter.unusedSectionVars false
namespace Musli
open Musli Musli.Spec

theorem thenCmp_eq {x y : Option Ordering} : thenCmp x y = some .eq ↔ x = some .eq ∧ y = some .eq := by
  cases x with
  | none => simp [thenCmp]
  | some o => cases o <;> simp [thenCmp]

theorem thenCmp_lt {x y : Option Ordering} :
    thenCmp x y = some .lt ↔ x = some .lt ∨ (x = some .eq ∧ y = some .lt) := by
  cases x with
  | none => simp [thenCmp]
  | some o => cases o <;> simp [thenCmp]

theorem thenCmp_swap (x y : Option Ordering) :
    thenCmp (x.map Ordering.swap) (y.map Ordering.swap) = (thenCmp x y).map Ordering.swap := by
  cases x with
  | none => rfl
  | some o => cases o <;> rfl

/-- What is proved about two values. -/
structure Right (a b : Value) : Prop where
  eq : cmpValue a b = some .eq ↔ Same a b
  lt : cmpValue a b = some .lt ↔ Less a b
  swap : cmpValue b a = (cmpValue a b).map Ordering.swap
  eqb : eqValue a b = true ↔ Same a b

structure RightAll (a b : List Value) : Prop where
  eq : cmpValues a b = some .eq ↔ SameAll a b
  lt : cmpValues a b = some .lt ↔ LessAll a b
  swap : cmpValues b a = (cmpValues a b).map Ordering.swap
  eqb : eqValues a b = true ↔ SameAll a b

structure RightPairs (a b : List (Value × Value)) : Prop where
  eq : cmpPairs a b = some .eq ↔ SamePairs a b
  lt : cmpPairs a b = some .lt ↔ LessPairs a b
  swap : cmpPairs b a = (cmpPairs a b).map Ordering.swap
  eqb : eqPairs a b = true ↔ SamePairs a b

theorem rightAll : ∀ (l : List Value) (_ : ∀ v ∈ l, ∀ b, Right v b) (r : List Value), RightAll l r
  | [], _, [] =>
    ⟨⟨fun _ => .nil, fun _ => rfl⟩, ⟨fun h => (nomatch h), fun h => (nomatch h)⟩, rfl, ⟨fun _ => .nil, fun _ => rfl⟩⟩
  | [], _, b :: r =>
    ⟨⟨fun h => (nomatch h), fun h => (nomatch h)⟩, ⟨fun _ => .nil b r, fun _ => rfl⟩, rfl,
      ⟨fun h => (nomatch h), fun h => (nomatch h)⟩⟩
  | a :: l, _, [] =>
    ⟨⟨fun h => (nomatch h), fun h => (nomatch h)⟩, ⟨fun h => (nomatch h), fun h => (nomatch h)⟩, rfl,
      ⟨fun h => (nomatch h), fun h => (nomatch h)⟩⟩
  | a :: l, h, b :: r => by
    have ha := h a List.mem_cons_self b
    have hl := rightAll l (fun v hv => h v (List.mem_cons_of_mem a hv)) r
    refine ⟨?_, ?_, ?_, ?_⟩
    · show thenCmp _ _ = _ ↔ _
      rw [thenCmp_eq, ha.eq, hl.eq]
      constructor
      · rintro ⟨h1, h2⟩; exact .cons h1 h2
      · intro h; cases h with | cons h1 h2 => exact ⟨h1, h2⟩
    · show thenCmp _ _ = _ ↔ _
      rw [thenCmp_lt, ha.lt, ha.eq, hl.lt]
      constructor
      · rintro (h1 | ⟨h1, h2⟩)
        · exact .head l r h1
        · exact .tail h1 h2
      · intro h
        cases h with
        | head _ _ h => exact .inl h
        | tail h1 h2 => exact .inr ⟨h1, h2⟩
    · show thenCmp _ _ = (thenCmp _ _).map _
      rw [ha.swap, hl.swap, thenCmp_swap]
    · show (_ && _) = true ↔ _
      rw [Bool.and_eq_true, ha.eqb, hl.eqb]
      constructor
      · rintro ⟨h1, h2⟩; exact .cons h1 h2
      · intro h; cases h with | cons h1 h2 => exact ⟨h1, h2⟩

theorem rightPairs : ∀ (l : List (Value × Value)) (_ : ∀ p ∈ l, (∀ b, Right p.1 b) ∧ ∀ b, Right p.2 b)
    (r : List (Value × Value)), RightPairs l r
  | [], _, [] =>
    ⟨⟨fun _ => .nil, fun _ => rfl⟩, ⟨fun h => (nomatch h), fun h => (nomatch h)⟩, rfl, ⟨fun _ => .nil, fun _ => rfl⟩⟩
  | [], _, b :: r =>
    ⟨⟨fun h => (nomatch h), fun h => (nomatch h)⟩, ⟨fun _ => .nil b r, fun _ => rfl⟩, rfl,
      ⟨fun h => (nomatch h), fun h => (nomatch h)⟩⟩
  | a :: l, _, [] =>
    ⟨⟨fun h => (nomatch h), fun h => (nomatch h)⟩, ⟨fun h => (nomatch h), fun h => (nomatch h)⟩, rfl,
      ⟨fun h => (nomatch h), fun h => (nomatch h)⟩⟩
  | (a, x) :: l, h, (b, y) :: r => by
    have ha := (h (a, x) List.mem_cons_self).1 b
    have hx := (h (a, x) List.mem_cons_self).2 y
    have hl := rightPairs l (fun v hv => h v (List.mem_cons_of_mem _ hv)) r
    dsimp only at ha hx
    refine ⟨?_, ?_, ?_, ?_⟩
    · show thenCmp (thenCmp _ _) _ = _ ↔ _
      rw [thenCmp_eq, thenCmp_eq, ha.eq, hx.eq, hl.eq]
      constructor
      · rintro ⟨⟨h1, h2⟩, h3⟩; exact .cons h1 h2 h3
      · intro h; cases h with | cons h1 h2 h3 => exact ⟨⟨h1, h2⟩, h3⟩
    · show thenCmp (thenCmp _ _) _ = _ ↔ _
      rw [thenCmp_lt, thenCmp_lt, thenCmp_eq, ha.lt, ha.eq, hx.lt, hx.eq, hl.lt]
      constructor
      · rintro ((h1 | ⟨h1, h2⟩) | ⟨⟨h1, h2⟩, h3⟩)
        · exact .key x y l r h1
        · exact .value l r h1 h2
        · exact .tail h1 h2 h3
      · intro h
        cases h with
        | key _ _ _ _ h => exact .inl (.inl h)
        | value _ _ h1 h2 => exact .inl (.inr ⟨h1, h2⟩)
        | tail h1 h2 h3 => exact .inr ⟨⟨h1, h2⟩, h3⟩
    · show thenCmp (thenCmp _ _) _ = (thenCmp (thenCmp _ _) _).map _
      rw [ha.swap, hx.swap, hl.swap, thenCmp_swap, thenCmp_swap]
    · show ((_ && _) && _) = true ↔ _
      rw [Bool.and_eq_true, Bool.and_eq_true, ha.eqb, hx.eqb, hl.eqb]
      constructor
      · rintro ⟨⟨h1, h2⟩, h3⟩; exact .cons h1 h2 h3
      · intro h; cases h with | cons h1 h2 h3 => exact ⟨⟨h1, h2⟩, h3⟩

/-- Values of different kinds. -/
theorem right_other {a b : Value} (h1 : cmpValue a b = none) (h2 : cmpValue b a = none)
    (h3 : eqValue a b = false) (hs : ¬ Same a b) (hl : ¬ Less a b) : Right a b := by
  refine ⟨?_, ?_, ?_, ?_⟩
  · rw [h1]; exact ⟨fun h => (nomatch h), fun h => absurd h hs⟩
  · rw [h1]; exact ⟨fun h => (nomatch h), fun h => absurd h hl⟩
  · rw [h1, h2]; rfl
  · rw [h3]; exact ⟨fun h => (nomatch h), fun h => absurd h hs⟩

macro "other" : tactic =>
  `(tactic| exact right_other rfl rfl rfl (by intro h; cases h) (by intro h; cases h))

theorem cmpBool_lt (a b : Bool) : cmpBool a b = .lt ↔ a = false ∧ b = true := by
  cases a <;> cases b <;> decide
theorem cmpBool_eq (a b : Bool) : cmpBool a b = .eq ↔ a = b := by
  cases a <;> cases b <;> decide
theorem cmpBool_swap (a b : Bool) : cmpBool b a = (cmpBool a b).swap := cmpInt_swap _ _

theorem right : ∀ a b : Value, Right a b := by
  intro a
  induction a using Value.ind with
  | unit =>
    intro b
    cases b with
    | unit => exact ⟨⟨fun _ => .unit, fun _ => rfl⟩, ⟨fun h => (nomatch h), fun h => (nomatch h)⟩, rfl,
        ⟨fun _ => .unit, fun _ => rfl⟩⟩
    | _ => other
  | bool a =>
    intro b
    cases b with
    | bool b =>
      refine ⟨?_, ?_, congrArg some (cmpBool_swap a b), ?_⟩
      · show some (cmpBool a b) = _ ↔ _
        rw [Option.some.injEq, cmpBool_eq]
        constructor
        · rintro rfl; exact .bool a
        · intro h; cases h; rfl
      · show some (cmpBool a b) = _ ↔ _
        rw [Option.some.injEq, cmpBool_lt]
        constructor
        · rintro ⟨rfl, rfl⟩; exact .bool
        · intro h; cases h; exact ⟨rfl, rfl⟩
      · show (a == b) = true ↔ _
        rw [beq_iff_eq]
        constructor
        · rintro rfl; exact .bool a
        · intro h; cases h; rfl
    | _ => other
  | char a =>
    intro b
    cases b with
    | char b =>
      refine ⟨?_, ?_, congrArg some (cmpInt_swap _ _), ?_⟩
      · show some (cmpInt _ _) = _ ↔ _
        rw [Option.some.injEq, cmpInt_eq]
        constructor
        · intro h
          have : a = b := Char.toNat_inj.mp (by omega)
          subst this; exact .char a
        · intro h; cases h; rfl
      · show some (cmpInt _ _) = _ ↔ _
        rw [Option.some.injEq, cmpInt_lt]
        constructor
        · intro h; exact .char (by omega)
        · intro h; cases h with | char h => omega
      · show (a == b) = true ↔ _
        rw [beq_iff_eq]
        constructor
        · rintro rfl; exact .char a
        · intro h; cases h; rfl
    | _ => other
  | number a =>
    intro b
    cases b with
    | number b =>
      refine ⟨?_, ?_, number_swap a b, ?_⟩
      · show a.cmp b = _ ↔ _
        rw [number_eq]
        exact ⟨.number, fun h => by cases h with | number h => exact h⟩
      · show a.cmp b = _ ↔ _
        rw [number_lt]
        exact ⟨.number, fun h => by cases h with | number h => exact h⟩
      · show a.eq b = true ↔ _
        rw [number_eqb, number_eq]
        exact ⟨.number, fun h => by cases h with | number h => exact h⟩
    | _ => other
  | bytes a =>
    intro b
    cases b with
    | bytes b =>
      refine ⟨?_, ?_, congrArg some (Text.cmpBytes_swap b a), ?_⟩
      · show some (Text.cmpBytes a b) = _ ↔ _
        rw [Option.some.injEq, Text.cmpBytes_eq_iff]
        constructor
        · rintro rfl; exact .bytes a
        · intro h; cases h; rfl
      · show some (Text.cmpBytes a b) = _ ↔ _
        rw [Option.some.injEq, cmpBytes_lt_iff]
        exact ⟨.bytes, fun h => by cases h with | bytes h => exact h⟩
      · show (a == b) = true ↔ _
        rw [beq_iff_eq]
        constructor
        · rintro rfl; exact .bytes a
        · intro h; cases h; rfl
    | _ => other
  | string a =>
    intro b
    cases b with
    | string b =>
      have he : a.bytes = b.bytes ↔ Same (.string a) (.string b) := by
        constructor
        · obtain ⟨a, ha⟩ := a
          obtain ⟨b, hb⟩ := b
          intro h
          have h : a = b := h
          subst h
          exact .string _
        · intro h; cases h; rfl
      refine ⟨?_, ?_, congrArg some (Text.cmpBytes_swap b.bytes a.bytes), ?_⟩
      · show some (Text.cmpBytes a.bytes b.bytes) = _ ↔ _
        rw [Option.some.injEq, Text.cmpBytes_eq_iff, he]
      · show some (Text.cmpBytes a.bytes b.bytes) = _ ↔ _
        rw [Option.some.injEq]
        obtain ⟨cs, hc⟩ := (Utf8.valid_iff _).mp a.valid
        obtain ⟨ds, hd⟩ := (Utf8.valid_iff _).mp b.valid
        constructor
        · intro h
          rw [hc, hd, Text.cmp_encode, cmpChars_lt_iff] at h
          exact .string hc hd h
        · intro h
          cases h with
          | string hc hd h =>
            rw [hc, hd, Text.cmp_encode, cmpChars_lt_iff]
            exact h
      · show (a.bytes == b.bytes) = true ↔ _
        rw [beq_iff_eq, he]
    | _ => other
  | seq l ih =>
    intro b
    cases b with
    | seq r =>
      have h := rightAll l ih r
      refine ⟨?_, ?_, h.swap, ?_⟩
      · show cmpValues l r = _ ↔ _
        rw [h.eq]
        exact ⟨.seq, fun h => by cases h with | seq h => exact h⟩
      · show cmpValues l r = _ ↔ _
        rw [h.lt]
        exact ⟨.seq, fun h => by cases h with | seq h => exact h⟩
      · show eqValues l r = _ ↔ _
        rw [h.eqb]
        exact ⟨.seq, fun h => by cases h with | seq h => exact h⟩
    | _ => other
  | map l ih =>
    intro b
    cases b with
    | map r =>
      have h := rightPairs l ih r
      refine ⟨?_, ?_, h.swap, ?_⟩
      · show cmpPairs l r = _ ↔ _
        rw [h.eq]
        exact ⟨.map, fun h => by cases h with | map h => exact h⟩
      · show cmpPairs l r = _ ↔ _
        rw [h.lt]
        exact ⟨.map, fun h => by cases h with | map h => exact h⟩
      · show eqPairs l r = _ ↔ _
        rw [h.eqb]
        exact ⟨.map, fun h => by cases h with | map h => exact h⟩
    | _ => other
  | variant a x ha hx =>
    intro b
    cases b with
    | variant b y =>
      have ha := ha b
      have hx := hx y
      refine ⟨?_, ?_, ?_, ?_⟩
      · show thenCmp _ _ = _ ↔ _
        rw [thenCmp_eq, ha.eq, hx.eq]
        exact ⟨fun h => .variant h.1 h.2, fun h => by cases h with | variant h1 h2 => exact ⟨h1, h2⟩⟩
      · show thenCmp _ _ = _ ↔ _
        rw [thenCmp_lt, ha.lt, ha.eq, hx.lt]
        constructor
        · rintro (h | ⟨h1, h2⟩)
          · exact .tag x y h
          · exact .data h1 h2
        · intro h
          cases h with
          | tag _ _ h => exact .inl h
          | data h1 h2 => exact .inr ⟨h1, h2⟩
      · show thenCmp _ _ = (thenCmp _ _).map _
        rw [ha.swap, hx.swap, thenCmp_swap]
      · show (_ && _) = true ↔ _
        rw [Bool.and_eq_true, ha.eqb, hx.eqb]
        exact ⟨fun h => .variant h.1 h.2, fun h => by cases h with | variant h1 h2 => exact ⟨h1, h2⟩⟩
    | _ => other
  | none =>
    intro b
    cases b with
    | none => exact ⟨⟨fun _ => .none, fun _ => rfl⟩, ⟨fun h => (nomatch h), fun h => (nomatch h)⟩, rfl,
        ⟨fun _ => .none, fun _ => rfl⟩⟩
    | some b => exact ⟨⟨fun h => (nomatch h), fun h => (nomatch h)⟩, ⟨fun _ => .none b, fun _ => rfl⟩, rfl,
        ⟨fun h => (nomatch h), fun h => (nomatch h)⟩⟩
    | _ => other
  | some a ih =>
    intro b
    cases b with
    | some b =>
      have h := ih b
      refine ⟨?_, ?_, h.swap, ?_⟩
      · show cmpValue a b = _ ↔ _
        rw [h.eq]
        exact ⟨.some, fun h => by cases h with | some h => exact h⟩
      · show cmpValue a b = _ ↔ _
        rw [h.lt]
        exact ⟨.some, fun h => by cases h with | some h => exact h⟩
      · show eqValue a b = _ ↔ _
        rw [h.eqb]
        exact ⟨.some, fun h => by cases h with | some h => exact h⟩
    | none => exact ⟨⟨fun h => (nomatch h), fun h => (nomatch h)⟩, ⟨fun h => (nomatch h), fun h => (nomatch h)⟩, rfl,
        ⟨fun h => (nomatch h), fun h => (nomatch h)⟩⟩
    | _ => other

end Musli
