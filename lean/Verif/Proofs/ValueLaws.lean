import Verif.Proofs.ValueOrder
/-!
# Proofs about the comparison of values: the laws of an order
-/
set_option linter.unusedSectionVars false
namespace Musli
open Musli Musli.Spec

/-- What follows for `a` and `c` if `a` and `b`, and `b` and `c`, compare like this. -/
inductive Comp : Ordering → Ordering → Ordering → Prop
  | eqL (o : Ordering) : Comp .eq o o
  | eqR (o : Ordering) : Comp o .eq o
  | lt : Comp .lt .lt .lt
  | gt : Comp .gt .gt .gt

/-- Transitivity of three results. -/
def CT (x y z : Option Ordering) : Prop :=
  ∀ o₁ o₂ o, x = some o₁ → y = some o₂ → Comp o₁ o₂ o → z = some o

theorem CT.none_left {y z} : CT none y z := fun _ _ _ h => nomatch h
theorem CT.none_right {x z} : CT x none z := fun _ _ _ _ h => nomatch h

theorem ct_then {x y z x' y' z' : Option Ordering} (h : CT x y z) (h' : CT x' y' z') :
    CT (thenCmp x x') (thenCmp y y') (thenCmp z z') := by
  intro o₁ o₂ o h1 h2 hc
  cases x with
  | none => cases h1
  | some p =>
    cases y with
    | none => cases h2
    | some q =>
      by_cases hp : p = .eq
      · by_cases hq : q = .eq
        · subst hp; subst hq
          rw [h _ _ _ rfl rfl (.eqL .eq)]
          exact h' o₁ o₂ o h1 h2 hc
        · subst hp
          have e : some q = some o₂ := by
            cases q
            · exact h2
            · exact absurd rfl hq
            · exact h2
          obtain rfl : q = o₂ := Option.some.inj e
          rw [h _ _ _ rfl rfl (.eqL q)]
          cases hc with
          | eqL => cases o
                   · rfl
                   · exact absurd rfl hq
                   · rfl
          | eqR => exact absurd rfl hq
          | lt => rfl
          | gt => rfl
      · have e : some p = some o₁ := by
          cases p
          · exact h1
          · exact absurd rfl hp
          · exact h1
        obtain rfl : p = o₁ := Option.some.inj e
        by_cases hq : q = .eq
        · subst hq
          rw [h _ _ _ rfl rfl (.eqR p)]
          cases hc with
          | eqL => exact absurd rfl hp
          | eqR => cases o
                   · rfl
                   · exact absurd rfl hp
                   · rfl
          | lt => rfl
          | gt => rfl
        · have e : some q = some o₂ := by
            cases q
            · exact h2
            · exact absurd rfl hq
            · exact h2
          obtain rfl : q = o₂ := Option.some.inj e
          cases hc with
          | eqL => exact absurd rfl hp
          | eqR => exact absurd rfl hq
          | lt => rw [h _ _ _ rfl rfl .lt]; rfl
          | gt => rw [h _ _ _ rfl rfl .gt]; rfl

theorem ct_int (a b c : Int) : CT (some (cmpInt a b)) (some (cmpInt b c)) (some (cmpInt a c)) := by
  intro o₁ o₂ o h1 h2 hc
  cases h1
  cases h2
  generalize h1 : cmpInt a b = x at *
  generalize h2 : cmpInt b c = y at *
  have gt : ∀ {a b : Int}, cmpInt a b = .gt → b < a := by
    intro a b h
    have h' := cmpInt_swap a b
    rw [h] at h'
    exact (cmpInt_lt b a).mp h'
  have gt' : ∀ {a b : Int}, b < a → cmpInt a b = .gt := by
    intro a b h
    have h' := cmpInt_swap b a
    rw [(cmpInt_lt b a).mpr h] at h'
    exact h'
  congr 1
  cases hc with
  | eqL =>
    rw [cmpInt_eq] at h1
    subst h1; exact h2
  | eqR =>
    rw [cmpInt_eq] at h2
    subst h2; exact h1
  | lt =>
    rw [cmpInt_lt] at h1 h2 ⊢
    omega
  | gt => exact gt' (Int.lt_trans (gt h2) (gt h1))

theorem ct_key (a b c : Option Int) : CT (cmpKey a b) (cmpKey b c) (cmpKey a c) := by
  cases a with
  | none => exact .none_left
  | some a =>
    cases b with
    | none => exact .none_left
    | some b =>
      cases c with
      | none => exact .none_right
      | some c => exact ct_int a b c

theorem number_then (a b : Number) :
    a.cmp b = thenCmp (some (cmpInt a.disc b.disc)) (cmpKey a.key b.key) := by
  unfold Number.cmp
  split
  · rename_i h; rw [(cmpInt_eq _ _).mpr h]; rfl
  · rename_i h
    have : cmpInt a.disc b.disc ≠ .eq := fun e => h ((cmpInt_eq _ _).mp e)
    cases hh : cmpInt a.disc b.disc with
    | lt => rfl
    | gt => rfl
    | eq => exact absurd hh this

theorem ct_number (a b c : Number) : CT (a.cmp b) (b.cmp c) (a.cmp c) := by
  rw [number_then, number_then, number_then]
  exact ct_then (ct_int _ _ _) (ct_key _ _ _)

theorem cmpBytes_then (a : Byte) (s : Bytes) (b : Byte) (t : Bytes) :
    some (Text.cmpBytes (a :: s) (b :: t)) =
      thenCmp (some (cmpInt a.toNat b.toNat)) (some (Text.cmpBytes s t)) := by
  rw [show Text.cmpBytes (a :: s) (b :: t) = if a.toNat < b.toNat then .lt
    else if b.toNat < a.toNat then .gt else Text.cmpBytes s t from rfl]
  split
  · rename_i h; rw [(cmpInt_lt _ _).mpr (by omega)]; rfl
  · split
    · rename_i h
      rw [cmpInt_swap, (cmpInt_lt _ _).mpr (by omega)]; rfl
    · rw [(cmpInt_eq _ _).mpr (by omega)]; rfl

theorem ct_bytes : ∀ a b c : Bytes,
    CT (some (Text.cmpBytes a b)) (some (Text.cmpBytes b c)) (some (Text.cmpBytes a c))
  | [], [], c => fun _ _ _ h1 h2 hc => by cases h1; cases hc <;> first | exact h2 | (cases h2; rfl)
  | [], _ :: _, [] => fun _ _ _ h1 h2 hc => by cases h1; cases h2; cases hc
  | [], _ :: _, _ :: _ => fun _ _ _ h1 h2 hc => by cases h1; cases hc <;> rfl
  | _ :: _, [], [] => fun _ _ _ h1 h2 hc => by cases h1; cases h2; cases hc; rfl
  | _ :: _, [], _ :: _ => fun _ _ _ h1 h2 hc => by cases h1; cases h2; cases hc
  | _ :: _, _ :: _, [] => fun _ _ _ h1 h2 hc => by cases h2; cases hc <;> rfl
  | a :: s, b :: t, c :: u => by
    rw [cmpBytes_then, cmpBytes_then, cmpBytes_then]
    exact ct_then (ct_int _ _ _) (ct_bytes s t u)

theorem ct_values : ∀ (l : List Value) (_ : ∀ v ∈ l, ∀ b c, CT (cmpValue v b) (cmpValue b c) (cmpValue v c))
    (m r : List Value), CT (cmpValues l m) (cmpValues m r) (cmpValues l r)
  | [], _, [], c => fun _ _ _ h1 h2 hc => by cases h1; cases hc <;> first | exact h2 | (cases h2; rfl)
  | [], _, _ :: _, [] => fun _ _ _ h1 h2 hc => by cases h1; cases h2; cases hc
  | [], _, _ :: _, _ :: _ => fun _ _ _ h1 h2 hc => by cases h1; cases hc <;> rfl
  | _ :: _, _, [], [] => fun _ _ _ h1 h2 hc => by cases h1; cases h2; cases hc; rfl
  | _ :: _, _, [], _ :: _ => fun _ _ _ h1 h2 hc => by cases h1; cases h2; cases hc
  | _ :: _, _, _ :: _, [] => fun _ _ _ h1 h2 hc => by cases h2; cases hc <;> rfl
  | a :: s, h, b :: t, c :: u =>
    ct_then (h a List.mem_cons_self b c) (ct_values s (fun v hv => h v (List.mem_cons_of_mem a hv)) t u)

theorem ct_pairs : ∀ (l : List (Value × Value))
    (_ : ∀ p ∈ l, (∀ b c, CT (cmpValue p.1 b) (cmpValue b c) (cmpValue p.1 c)) ∧
      ∀ b c, CT (cmpValue p.2 b) (cmpValue b c) (cmpValue p.2 c))
    (m r : List (Value × Value)), CT (cmpPairs l m) (cmpPairs m r) (cmpPairs l r)
  | [], _, [], c => fun _ _ _ h1 h2 hc => by cases h1; cases hc <;> first | exact h2 | (cases h2; rfl)
  | [], _, _ :: _, [] => fun _ _ _ h1 h2 hc => by cases h1; cases h2; cases hc
  | [], _, _ :: _, _ :: _ => fun _ _ _ h1 h2 hc => by cases h1; cases hc <;> rfl
  | _ :: _, _, [], [] => fun _ _ _ h1 h2 hc => by cases h1; cases h2; cases hc; rfl
  | _ :: _, _, [], _ :: _ => fun _ _ _ h1 h2 hc => by cases h1; cases h2; cases hc
  | _ :: _, _, _ :: _, [] => fun _ _ _ h1 h2 hc => by cases h2; cases hc <;> rfl
  | (a, x) :: s, h, (b, y) :: t, (c, z) :: u =>
    ct_then (ct_then ((h _ List.mem_cons_self).1 b c) ((h _ List.mem_cons_self).2 y z))
      (ct_pairs s (fun v hv => h v (List.mem_cons_of_mem _ hv)) t u)

theorem ct_value : ∀ a b c : Value, CT (cmpValue a b) (cmpValue b c) (cmpValue a c) := by
  intro a
  induction a using Value.ind with
  | unit =>
    intro b c
    cases b with
    | unit => intro o₁ o₂ o h1 h2 hc; cases h1; cases hc <;> first | exact h2 | (cases h2; rfl)
    | _ => exact .none_left
  | bool a =>
    intro b c
    cases b with
    | bool b =>
      cases c with
      | bool c => exact ct_int _ _ _
      | _ => exact .none_right
    | _ => exact .none_left
  | char a =>
    intro b c
    cases b with
    | char b =>
      cases c with
      | char c => exact ct_int _ _ _
      | _ => exact .none_right
    | _ => exact .none_left
  | number a =>
    intro b c
    cases b with
    | number b =>
      cases c with
      | number c => exact ct_number _ _ _
      | _ => exact .none_right
    | _ => exact .none_left
  | bytes a =>
    intro b c
    cases b with
    | bytes b =>
      cases c with
      | bytes c => exact ct_bytes _ _ _
      | _ => exact .none_right
    | _ => exact .none_left
  | string a =>
    intro b c
    cases b with
    | string b =>
      cases c with
      | string c => exact ct_bytes _ _ _
      | _ => exact .none_right
    | _ => exact .none_left
  | seq a ih =>
    intro b c
    cases b with
    | seq b =>
      cases c with
      | seq c => exact ct_values a ih b c
      | _ => exact .none_right
    | _ => exact .none_left
  | map a ih =>
    intro b c
    cases b with
    | map b =>
      cases c with
      | map c => exact ct_pairs a ih b c
      | _ => exact .none_right
    | _ => exact .none_left
  | variant a x ha hx =>
    intro b c
    cases b with
    | variant b y =>
      cases c with
      | variant c z => exact ct_then (ha b c) (hx y z)
      | _ => exact .none_right
    | _ => exact .none_left
  | none =>
    intro b c
    cases b with
    | none => intro o₁ o₂ o h1 h2 hc; cases h1; cases hc <;> first | exact h2 | (cases h2; rfl)
    | some b =>
      cases c with
      | some c => intro o₁ o₂ o h1 h2 hc; cases h1; cases hc <;> rfl
      | none => intro o₁ o₂ o h1 h2 hc; cases h1; cases h2; cases hc
      | _ => exact .none_right
    | _ => exact .none_left
  | some a ih =>
    intro b c
    cases b with
    | some b =>
      cases c with
      | some c => exact ih b c
      | none => intro o₁ o₂ o h1 h2 hc; cases h2; cases hc <;> rfl
      | _ => exact .none_right
    | none =>
      cases c with
      | some c => intro o₁ o₂ o h1 h2 hc; cases h1; cases h2; cases hc
      | none => intro o₁ o₂ o h1 h2 hc; cases h1; cases h2; cases hc; rfl
      | _ => exact .none_right
    | _ => exact .none_left

/-! ## Equality with itself -/

theorem same_number_self (n : Number) : SameNumber n n ↔
    (∀ v, n = .f32 v → ¬ Float.f32.IsNaN v.toNat) ∧ (∀ v, n = .f64 v → ¬ Float.f64.IsNaN v.toNat) := by
  constructor
  · intro h
    cases h with
    | f32 h _ _ => exact ⟨fun v e => (by cases e; exact h), fun v e => (by cases e)⟩
    | f64 h _ _ => exact ⟨fun v e => (by cases e), fun v e => (by cases e; exact h)⟩
    | _ => exact ⟨fun v e => (by cases e), fun v e => (by cases e)⟩
  · rintro ⟨h1, h2⟩
    cases n with
    | f32 v => exact .f32 (h1 v rfl) (h1 v rfl) rfl
    | f64 v => exact .f64 (h2 v rfl) (h2 v rfl) rfl
    | uint w v => exact .uint v
    | sint w v => exact .sint v
    | usize v => exact .usize v
    | isize v => exact .isize v

theorem same_values_self : ∀ (l : List Value) (_ : ∀ v ∈ l, (Same v v ↔ NoNaN v)), SameAll l l ↔ NoNaNs l
  | [], _ => ⟨fun _ => .nil, fun _ => .nil⟩
  | a :: l, h => by
    have h1 := h a List.mem_cons_self
    have h2 := same_values_self l (fun v hv => h v (List.mem_cons_of_mem a hv))
    constructor
    · intro h; cases h with | cons x y => exact .cons (h1.mp x) (h2.mp y)
    · intro h; cases h with | cons x y => exact .cons (h1.mpr x) (h2.mpr y)

theorem same_pairs_self : ∀ (l : List (Value × Value))
    (_ : ∀ p ∈ l, (Same p.1 p.1 ↔ NoNaN p.1) ∧ (Same p.2 p.2 ↔ NoNaN p.2)), SamePairs l l ↔ NoNaNPairs l
  | [], _ => ⟨fun _ => .nil, fun _ => .nil⟩
  | (a, x) :: l, h => by
    have h1 := h (a, x) List.mem_cons_self
    have h2 := same_pairs_self l (fun v hv => h v (List.mem_cons_of_mem _ hv))
    constructor
    · intro h; cases h with | cons x y z => exact .cons (h1.1.mp x) (h1.2.mp y) (h2.mp z)
    · intro h; cases h with | cons x y z => exact .cons (h1.1.mpr x) (h1.2.mpr y) (h2.mpr z)

theorem same_self (v : Value) : Same v v ↔ NoNaN v := by
  induction v using Value.ind with
  | unit => exact ⟨fun _ => .unit, fun _ => .unit⟩
  | bool b => exact ⟨fun _ => .bool b, fun _ => .bool b⟩
  | char c => exact ⟨fun _ => .char c, fun _ => .char c⟩
  | number n =>
    constructor
    · intro h; cases h with | number h => obtain ⟨h1, h2⟩ := (same_number_self n).mp h; exact .number h1 h2
    · intro h; cases h with | number h1 h2 => exact .number ((same_number_self n).mpr ⟨h1, h2⟩)
  | bytes b => exact ⟨fun _ => .bytes b, fun _ => .bytes b⟩
  | string s => exact ⟨fun _ => .string s, fun _ => .string s⟩
  | seq l ih =>
    have := same_values_self l ih
    constructor
    · intro h; cases h with | seq h => exact .seq (this.mp h)
    · intro h; cases h with | seq h => exact .seq (this.mpr h)
  | map l ih =>
    have := same_pairs_self l ih
    constructor
    · intro h; cases h with | map h => exact .map (this.mp h)
    · intro h; cases h with | map h => exact .map (this.mpr h)
  | variant a x ha hx =>
    constructor
    · intro h; cases h with | variant h1 h2 => exact .variant (ha.mp h1) (hx.mp h2)
    · intro h; cases h with | variant h1 h2 => exact .variant (ha.mpr h1) (hx.mpr h2)
  | none => exact ⟨fun _ => .none, fun _ => .none⟩
  | some v ih =>
    constructor
    · intro h; cases h with | some h => exact .some (ih.mp h)
    · intro h; cases h with | some h => exact .some (ih.mpr h)

end Musli
