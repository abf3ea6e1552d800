import Verif.Model.Report
import Verif.Spec.Report
import Verif.Proofs.Json.Numbers
/-!
# Texts of errors
-/
namespace Musli.Trace
open Musli Musli.Trace.Spec
open Musli.Json (decimal)

set_option linter.unusedSectionVars false

/-- The flags of the loop say where it is. -/
def Here (a : At) (s : Fmt) : Prop := s.hasType = decide (a = .type) ∧ s.hasField = decide (a = .member)

theorem fold_text : ∀ (p : List Step) (a : At) (s : Fmt), Here a s →
    (p.foldl Fmt.step s).out ++ closing (p.foldl Fmt.step s).level =
      s.out ++ (pathText decimal a p ++ closing s.level)
  | [], a, s, h => by simp [pathText]
  | x :: rest, a, s, ⟨h1, h2⟩ => by
    rw [List.foldl_cons]
    cases x with
    | struct n =>
      rw [fold_text rest .type _ ⟨rfl, rfl⟩]
      cases a <;> simp_all [pathText, Fmt.step, Fmt.sort, At.lead]
    | variant n =>
      rw [fold_text rest .type _ ⟨rfl, rfl⟩]
      cases a <;> simp_all [pathText, Fmt.step, Fmt.sort, At.lead]
    | enum n =>
      rw [fold_text rest (if a = .type then .type else .enum) _ (by
        cases a <;> simp_all [Here, Fmt.step, Fmt.sort])]
      cases a <;> simp_all [pathText, Fmt.step, Fmt.sort, At.lead]
    | named n =>
      rw [fold_text rest .member _ ⟨rfl, rfl⟩]
      cases a <;> simp_all [pathText, Fmt.step, Fmt.member, memberText, closing]
    | unnamed n =>
      rw [fold_text rest .member _ ⟨rfl, rfl⟩]
      cases a <;> simp_all [pathText, Fmt.step, Fmt.member, memberText, closing]
    | index n =>
      rw [fold_text rest .member _ ⟨rfl, rfl⟩]
      cases a <;> simp_all [pathText, Fmt.step, Fmt.member, memberText, closing]
    | key n =>
      rw [fold_text rest .member _ ⟨rfl, rfl⟩]
      cases a <;> simp_all [pathText, Fmt.step, Fmt.member, memberText, closing]

theorem formatPath_text (p : List Step) (cap : Nat) :
    formatPath p cap = pathText decimal .start p ++ cappedText cap := by
  have := fold_text p .start ⟨false, false, 0, []⟩ ⟨rfl, rfl⟩
  unfold formatPath
  simp only [this, closing, List.nil_append, List.append_nil]

/-! ## Cutting -/

/-- The rest does not go on with a byte of this kind. -/
def Stops (f : Byte → Bool) (x : Bytes) : Prop := ∀ b r, x = b :: r → f b = false

theorem cut {f : Byte → Bool} : ∀ {n n' x x' : Bytes}, (∀ b ∈ n, f b = true) → (∀ b ∈ n', f b = true) →
    Stops f x → Stops f x' → n ++ x = n' ++ x' → n = n' ∧ x = x'
  | [], [], _, _, _, _, _, _, h => ⟨rfl, h⟩
  | [], b :: r, x, _, _, h2, h3, _, h => by
    have := h3 b _ h
    rw [h2 b (by simp)] at this; exact absurd this (by simp)
  | b :: r, [], _, x', h1, _, _, h4, h => by
    have := h4 b _ h.symm
    rw [h1 b (by simp)] at this; exact absurd this (by simp)
  | b :: r, b' :: r', _, _, h1, h2, h3, h4, h => by
    rw [List.cons_append, List.cons_append, List.cons.injEq] at h
    obtain ⟨e1, e2⟩ := cut (fun c hc => h1 c (List.mem_cons_of_mem _ hc))
      (fun c hc => h2 c (List.mem_cons_of_mem _ hc)) h3 h4 h.2
    exact ⟨by rw [h.1, e1], e2⟩

theorem decimal_inj {a b : Nat} (h : decimal a = decimal b) : a = b := by
  rw [← Musli.Json.value_decimal a, h, Musli.Json.value_decimal]

theorem decimal_ne (n : Nat) : ∃ b r, decimal n = b :: r := by
  unfold decimal
  split
  · exact ⟨_, _, rfl⟩
  · cases h : decimal (n / 10) with
    | nil => exact ⟨_, _, rfl⟩
    | cons b r => exact ⟨b, _, rfl⟩

def digitByte (b : Byte) : Bool := 0x30 ≤ b && b ≤ 0x39

theorem decimal_digits (n : Nat) : ∀ b ∈ decimal n, digitByte b = true := by
  intro b hb
  have := (Musli.Json.decimal_spec n).1 b hb
  unfold Musli.Json.Spec.Digit at this
  simp only [digitByte, Bool.and_eq_true, decide_eq_true_eq, BitVec.le_def]
  exact this

theorem decimal_names (n : Nat) : ∀ b ∈ decimal n, nameByte b = true := by
  intro b hb
  have := decimal_digits n b hb
  unfold digitByte at this
  unfold nameByte
  rw [this]; simp

/-! ## One step -/

def isType : Step → Bool
  | .struct _ => true
  | .enum _ => true
  | .variant _ => true
  | _ => false

/-- What one step writes, without the closing brace. -/
def stepText (a : At) : Step → Bytes
  | .struct name => a.lead ++ name
  | .variant name => a.lead ++ name
  | .enum name => a.lead ++ name ++ [0x3A, 0x3A]
  | m => (if a = .type then [0x20, 0x7B, 0x20] else []) ++ memberText decimal m

def nextAt (a : At) : Step → At
  | .struct _ => .type
  | .variant _ => .type
  | .enum _ => if a = .type then .type else .enum
  | _ => .member

def closeText (a : At) (x : Step) : Bytes := if a = .type ∧ isType x = false then [0x20, 0x7D] else []

theorem pathText_cons (a : At) (x : Step) (rest : List Step) : pathText decimal a (x :: rest) =
    stepText a x ++ (pathText decimal (nextAt a x) rest ++ closeText a x) := by
  cases x <;> cases a <;> simp [pathText, stepText, nextAt, closeText, isType, At.lead]

/-- What can follow the text of a path. -/
def End (z : Bytes) : Prop := z = [] ∨ (∃ b r, z = 0x20 :: b :: r ∧ (b = 0x7D ∨ b = 0x2E)) ∨ ∃ r, z = 0x3A :: 0x20 :: r

theorem end_close {z : Bytes} (h : End z) (a : At) (x : Step) : End (closeText a x ++ z) := by
  unfold closeText
  split
  · exact .inr (.inl ⟨_, _, rfl, .inl rfl⟩)
  · exact h

/-- What a step itself has to satisfy. -/
def Ok (types : Bool) (a : At) : Step → Prop
  | .struct name => types = true ∧ (a = .start ∨ a = .member) ∧ IsName name
  | .enum name => types = true ∧ (a = .start ∨ a = .member) ∧ IsName name
  | .variant name => (if types then a = .enum else a = .start ∨ a = .member) ∧ IsName name
  | .named name => IsName name
  | .key k => IsKey decimal k
  | _ => True

theorem plain_cons {types : Bool} {a : At} {x : Step} {rest : List Step} (h : Plain decimal types a (x :: rest)) :
    Ok types a x ∧ Plain decimal types (nextAt a x) rest := by
  cases x with
  | enum n =>
    obtain ⟨h1, h2, h3, h4⟩ := h
    refine ⟨⟨h1, h2, h3⟩, ?_⟩
    have : nextAt a (.enum n) = .enum := by rcases h2 with h | h <;> subst h <;> rfl
    rw [this]; exact h4
  | struct n => exact ⟨⟨h.1, h.2.1, h.2.2.1⟩, h.2.2.2⟩
  | variant n => exact ⟨⟨h.1, h.2.1⟩, h.2.2⟩
  | named n => exact ⟨h.1, h.2⟩
  | unnamed n => exact ⟨trivial, h⟩
  | index n => exact ⟨trivial, h⟩
  | key n => exact ⟨h.1, h.2⟩

theorem name_cons {n : Bytes} (h : IsName n) : ∃ b r, n = b :: r ∧ nameByte b = true := by
  obtain ⟨h1, b, r, h2, _⟩ := h
  exact ⟨b, r, h2, h1 b (by simp [h2])⟩

theorem name_space {b : Byte} (h : nameByte b = true) : b ≠ 0x20 ∧ b ≠ 0x2E ∧ b ≠ 0x5B ∧ b ≠ 0x3A ∧ b ≠ 0x5D ∧
    b ≠ 0x0A := by
  revert h; revert b; decide

theorem name_append {n : Bytes} (h : IsName n) (x : Bytes) : ∃ b r, n ++ x = b :: r ∧ nameByte b = true := by
  obtain ⟨b, r, h1, h2⟩ := name_cons h
  exact ⟨b, r ++ x, by rw [h1]; rfl, h2⟩

/-- How the text of a step which is a type begins. -/
theorem type_head {types : Bool} {a : At} {x : Step} (h : Ok types a x) (ht : isType x = true) :
    a ≠ .type ∧ ∃ n r, stepText a x = a.lead ++ n ++ r ∧ IsName n ∧ (r = [] ∨ r = [0x3A, 0x3A]) := by
  cases x with
  | struct n =>
    obtain ⟨_, h2, h3⟩ := h
    exact ⟨by rcases h2 with h | h <;> subst h <;> simp, n, [], by simp [stepText], h3, .inl rfl⟩
  | enum n =>
    obtain ⟨_, h2, h3⟩ := h
    exact ⟨by rcases h2 with h | h <;> subst h <;> simp, n, _, by simp [stepText], h3, .inr rfl⟩
  | variant n =>
    obtain ⟨h2, h3⟩ := h
    refine ⟨?_, n, [], by simp [stepText], h3, .inl rfl⟩
    intro e; subst e; split at h2 <;> simp at h2
  | _ => simp [isType] at ht

theorem member_head {x : Step} (ht : isType x = false) :
    ∃ b r, memberText decimal x = b :: r ∧ (b = 0x2E ∨ b = 0x5B) := by
  cases x <;> simp [isType] at ht <;> simp [memberText]

theorem stepText_member {x : Step} (a : At) (ht : isType x = false) :
    stepText a x = (if a = .type then [0x20, 0x7B, 0x20] else []) ++ memberText decimal x := by
  cases x <;> simp [isType] at ht <;> rfl

/-- The end is not another step. -/
theorem end_ne_step {types : Bool} {a : At} {x : Step} (h : Ok types a x) {z : Bytes} (hz : End z) (y : Bytes) :
    z ≠ stepText a x ++ y := by
  intro e
  cases ht : isType x with
  | true =>
    obtain ⟨h1, n, r, h2, h3, _⟩ := type_head h ht
    rw [h2] at e
    obtain ⟨b, r', h4, h5⟩ := name_append h3 (r ++ y)
    cases a with
    | type => exact h1 rfl
    | member =>
      rcases hz with hz | ⟨c, s, hz, hc⟩ | ⟨s, hz⟩
      · subst hz; simp [At.lead] at e
      · subst hz
        simp only [At.lead, List.cons_append, List.cons.injEq] at e
        rw [e.2.1] at hc; revert hc; decide
      · subst hz; simp only [At.lead, List.cons_append, List.cons.injEq] at e
        exact absurd e.1 (by decide)
    | start =>
      simp only [At.lead, List.nil_append, List.append_assoc] at e
      rw [h4] at e
      rcases hz with hz | ⟨c, s, hz, hc⟩ | ⟨s, hz⟩
      · subst hz; simp at e
      · subst hz; exact (name_space h5).1 (List.cons.inj e).1.symm
      · subst hz; exact (name_space h5).2.2.2.1 (List.cons.inj e).1.symm
    | enum =>
      simp only [At.lead, List.nil_append, List.append_assoc] at e
      rw [h4] at e
      rcases hz with hz | ⟨c, s, hz, hc⟩ | ⟨s, hz⟩
      · subst hz; simp at e
      · subst hz; exact (name_space h5).1 (List.cons.inj e).1.symm
      · subst hz; exact (name_space h5).2.2.2.1 (List.cons.inj e).1.symm
  | false =>
    obtain ⟨b, r, h1, h2⟩ := member_head ht
    rw [stepText_member a ht, h1] at e
    split at e
    · rcases hz with hz | ⟨c, s, hz, hc⟩ | ⟨s, hz⟩
      · subst hz; simp at e
      · subst hz
        simp only [List.cons_append, List.cons.injEq] at e
        rw [e.2.1] at hc; revert hc; decide
      · subst hz; simp only [List.cons_append, List.cons.injEq] at e
        exact absurd e.1 (by decide)
    · rcases hz with hz | ⟨c, s, hz, hc⟩ | ⟨s, hz⟩
      · subst hz; simp at e
      · subst hz
        simp only [List.nil_append, List.cons_append, List.cons.injEq] at e
        rcases h2 with h2 | h2 <;> rw [h2] at e <;> exact absurd e.1 (by decide)
      · subst hz
        simp only [List.nil_append, List.cons_append, List.cons.injEq] at e
        rcases h2 with h2 | h2 <;> rw [h2] at e <;> exact absurd e.1 (by decide)

/-- A type is not a member. -/
theorem type_ne_member {types : Bool} {a : At} {x y : Step} (h : Ok types a x) (hx : isType x = true)
    (hy : isType y = false) (u v : Bytes) : stepText a x ++ u ≠ stepText a y ++ v := by
  intro e
  obtain ⟨h1, n, r, h2, h3, _⟩ := type_head h hx
  obtain ⟨b, r', h4, h5⟩ := member_head hy
  obtain ⟨c, s, h6, h7⟩ := name_append h3 (r ++ u)
  rw [stepText_member a hy, if_neg h1, h2, h4] at e
  cases a with
  | type => exact h1 rfl
  | member =>
    simp only [At.lead, List.nil_append, List.cons_append, List.cons.injEq] at e
    rcases h5 with h5 | h5 <;> rw [h5] at e <;> exact absurd e.1 (by decide)
  | start =>
    simp only [At.lead, List.nil_append, List.append_assoc, h6, List.cons_append, List.cons.injEq] at e
    have := name_space h7
    rcases h5 with h5 | h5
    · exact this.2.1 (e.1.trans h5)
    · exact this.2.2.1 (e.1.trans h5)
  | enum =>
    simp only [At.lead, List.nil_append, List.append_assoc, h6, List.cons_append, List.cons.injEq] at e
    have := name_space h7
    rcases h5 with h5 | h5
    · exact this.2.1 (e.1.trans h5)
    · exact this.2.2.1 (e.1.trans h5)

/-- What follows a step does not go on with its name. -/
theorem stops_rest {types : Bool} {a : At} {rest : List Step} (h : Plain decimal types a rest)
    (ha : a = .type ∨ a = .member) {z : Bytes} (hz : End z) : Stops nameByte (pathText decimal a rest ++ z) := by
  intro b r e
  cases rest with
  | nil =>
    rcases hz with hz | ⟨c, s, hz, _⟩ | ⟨s, hz⟩
    · subst hz; simp [pathText] at e
    · subst hz
      simp only [pathText, List.nil_append, List.cons.injEq] at e
      rw [← e.1]; decide
    · subst hz
      simp only [pathText, List.nil_append, List.cons.injEq] at e
      rw [← e.1]; decide
  | cons x rest =>
    obtain ⟨ho, _⟩ := plain_cons h
    rw [pathText_cons, List.append_assoc] at e
    cases ht : isType x with
    | true =>
      obtain ⟨h1, n, r, h2, h3, _⟩ := type_head ho ht
      rcases ha with ha | ha
      · exact absurd ha h1
      · subst ha
        rw [h2] at e
        simp only [At.lead, List.cons_append, List.cons.injEq] at e
        rw [← e.1]; decide
    | false =>
      obtain ⟨c, r, h1, h2⟩ := member_head ht
      rw [stepText_member a ht, h1] at e
      split at e
      · simp only [List.cons_append, List.cons.injEq] at e
        rw [← e.1]; decide
      · simp only [List.nil_append, List.cons_append, List.cons.injEq] at e
        rw [← e.1]
        rcases h2 with h2 | h2 <;> subst h2 <;> decide

/-- After the name of a type there is no `::`. -/
theorem stops_type {types : Bool} {rest : List Step} (h : Plain decimal types .type rest) {z : Bytes} (hz : End z)
    (y : Bytes) : pathText decimal .type rest ++ z ≠ 0x3A :: 0x3A :: y := by
  intro e
  cases rest with
  | nil =>
    rcases hz with hz | ⟨c, s, hz, _⟩ | ⟨s, hz⟩
    · subst hz; simp [pathText] at e
    · subst hz
      simp only [pathText, List.nil_append, List.cons.injEq] at e
      exact absurd e.1 (by decide)
    · subst hz
      simp only [pathText, List.nil_append, List.cons.injEq] at e
      exact absurd e.2.1 (by decide)
  | cons x rest =>
    obtain ⟨ho, _⟩ := plain_cons h
    rw [pathText_cons, List.append_assoc] at e
    cases ht : isType x with
    | true => exact (type_head ho ht).1 rfl
    | false =>
      rw [stepText_member _ ht, if_pos rfl] at e
      simp only [List.cons_append, List.cons.injEq] at e
      exact absurd e.1 (by decide)

/-- Two types of which the texts are the same are the same. -/
theorem type_inj {types : Bool} {a : At} {x y : Step} (hx : Ok types a x) (hy : Ok types a y)
    (tx : isType x = true) (ty : isType y = true) {u v : Bytes}
    (hu : nextAt a x = .type → Stops nameByte u ∧ ∀ w, u ≠ 0x3A :: 0x3A :: w)
    (hv : nextAt a y = .type → Stops nameByte v ∧ ∀ w, v ≠ 0x3A :: 0x3A :: w)
    (e : stepText a x ++ u = stepText a y ++ v) : x = y ∧ u = v := by
  have colon : ∀ w : Bytes, Stops nameByte (0x3A :: w) := fun w b r e => by
    rw [← (List.cons.inj e).1]; decide
  cases x <;> simp [isType] at tx <;> cases y <;> simp [isType] at ty <;>
    simp only [stepText, List.append_assoc, List.append_cancel_left_eq, List.cons_append, List.nil_append] at e
  case struct.struct n m =>
    obtain ⟨e1, e2⟩ := cut hx.2.2.1 hy.2.2.1 (hu rfl).1 (hv rfl).1 e
    exact ⟨by rw [e1], e2⟩
  case struct.enum n m =>
    obtain ⟨e1, e2⟩ := cut hx.2.2.1 hy.2.2.1 (hu rfl).1 (colon _) e
    exact absurd e2 ((hu rfl).2 _)
  case struct.variant n m =>
    exfalso
    obtain ⟨h1, h2, _⟩ := hx
    obtain ⟨h3, _⟩ := hy
    subst h1; simp only [if_true] at h3; subst h3; simp at h2
  case enum.struct n m =>
    obtain ⟨e1, e2⟩ := cut hx.2.2.1 hy.2.2.1 (colon _) (hv rfl).1 e
    exact absurd e2.symm ((hv rfl).2 _)
  case enum.enum n m =>
    obtain ⟨e1, e2⟩ := cut hx.2.2.1 hy.2.2.1 (colon _) (colon _) e
    simp only [List.cons.injEq, true_and] at e2
    exact ⟨by rw [e1], e2⟩
  case enum.variant n m =>
    exfalso
    obtain ⟨h1, h2, _⟩ := hx
    obtain ⟨h3, _⟩ := hy
    subst h1; simp only [if_true] at h3; subst h3; simp at h2
  case variant.struct n m =>
    exfalso
    obtain ⟨h1, h2, _⟩ := hy
    obtain ⟨h3, _⟩ := hx
    subst h1; simp only [if_true] at h3; subst h3; simp at h2
  case variant.enum n m =>
    exfalso
    obtain ⟨h1, h2, _⟩ := hy
    obtain ⟨h3, _⟩ := hx
    subst h1; simp only [if_true] at h3; subst h3; simp at h2
  case variant.variant n m =>
    obtain ⟨e1, e2⟩ := cut hx.2.1 hy.2.1 (hu rfl).1 (hv rfl).1 e
    exact ⟨by rw [e1], e2⟩

theorem name_ne_decimal {n : Bytes} (h : IsName n) (i : Nat) : n ≠ decimal i := by
  intro e
  obtain ⟨_, b, r, h1, h2⟩ := h
  have := decimal_digits i b (by rw [← e, h1]; simp)
  simp only [digitByte, Bool.and_eq_true, decide_eq_true_eq] at this
  exact h2 this

def notClose (b : Byte) : Bool := b != 0x5D

theorem stops_close (w : Bytes) : Stops notClose (0x5D :: w) := fun b r e => by
  rw [← (List.cons.inj e).1]; decide

theorem decimal_notClose (i : Nat) : ∀ b ∈ decimal i, notClose b = true := by
  intro b hb
  have := (name_space (decimal_names i b hb)).2.2.2.2.1
  exact bne_iff_ne.2 this

theorem key_notClose {k : Bytes} (h : IsKey decimal k) : ∀ b ∈ k, notClose b = true := by
  intro b hb
  have := (h.1 b hb).1
  exact bne_iff_ne.2 this

/-- Two members of which the texts are the same are the same. -/
theorem member_inj {types : Bool} {a : At} {x y : Step} (hx : Ok types a x) (hy : Ok types a y)
    (tx : isType x = false) (ty : isType y = false) {u v : Bytes}
    (hu : Stops nameByte u) (hv : Stops nameByte v)
    (e : stepText a x ++ u = stepText a y ++ v) : x = y ∧ u = v := by
  rw [stepText_member a tx, stepText_member a ty, List.append_assoc, List.append_assoc,
    List.append_cancel_left_eq] at e
  cases x <;> simp [isType] at tx <;> cases y <;> simp [isType] at ty <;>
    simp only [memberText, List.append_assoc, List.cons_append, List.nil_append, List.cons.injEq, true_and] at e
  case named.named n m =>
    obtain ⟨e1, e2⟩ := cut hx.1 hy.1 hu hv e
    exact ⟨by rw [e1], e2⟩
  case named.unnamed n m =>
    obtain ⟨e1, e2⟩ := cut hx.1 (decimal_names m) hu hv e
    exact absurd e1 (name_ne_decimal hx m)
  case unnamed.named n m =>
    obtain ⟨e1, e2⟩ := cut (decimal_names n) hy.1 hu hv e
    exact absurd e1.symm (name_ne_decimal hy n)
  case unnamed.unnamed n m =>
    obtain ⟨e1, e2⟩ := cut (decimal_names n) (decimal_names m) hu hv e
    exact ⟨by rw [decimal_inj e1], e2⟩
  case index.index n m =>
    obtain ⟨e1, e2⟩ := cut (decimal_notClose n) (decimal_notClose m) (stops_close _) (stops_close _) e
    exact ⟨by rw [decimal_inj e1], (List.cons.inj e2).2⟩
  case index.key n m =>
    obtain ⟨e1, e2⟩ := cut (decimal_notClose n) (key_notClose hy) (stops_close _) (stops_close _) e
    exact absurd e1.symm (hy.2 n)
  case key.index n m =>
    obtain ⟨e1, e2⟩ := cut (key_notClose hx) (decimal_notClose m) (stops_close _) (stops_close _) e
    exact absurd e1 (hx.2 m)
  case key.key n m =>
    obtain ⟨e1, e2⟩ := cut (key_notClose hx) (key_notClose hy) (stops_close _) (stops_close _) e
    exact ⟨by rw [e1], (List.cons.inj e2).2⟩
  all_goals exact absurd e.1 (by decide)

theorem nextAt_member {x : Step} (a : At) (h : isType x = false) : nextAt a x = .member := by
  cases x <;> simp [isType] at h <;> rfl

/-- The text of a path determines it. -/
theorem path_inj {types : Bool} : ∀ (p q : List Step) (a : At), Plain decimal types a p → Plain decimal types a q →
    ∀ {z z' : Bytes}, End z → End z' → pathText decimal a p ++ z = pathText decimal a q ++ z' → p = q ∧ z = z'
  | [], [], _, _, _, _, _, _, _, e => ⟨rfl, by simpa [pathText] using e⟩
  | [], y :: q, a, _, hq, z, z', hz, hz', e => by
    rw [pathText_cons, List.append_assoc] at e
    exact absurd e (end_ne_step (plain_cons hq).1 hz _)
  | x :: p, [], a, hp, _, z, z', hz, hz', e => by
    rw [pathText_cons, List.append_assoc] at e
    exact absurd e.symm (end_ne_step (plain_cons hp).1 hz' _)
  | x :: p, y :: q, a, hp, hq, z, z', hz, hz', e => by
    obtain ⟨ox, px⟩ := plain_cons hp
    obtain ⟨oy, py⟩ := plain_cons hq
    rw [pathText_cons, pathText_cons, List.append_assoc, List.append_assoc, List.append_assoc,
      List.append_assoc] at e
    have ex := end_close hz a x
    have ey := end_close hz' a y
    have key : x = y ∧ pathText decimal (nextAt a x) p ++ (closeText a x ++ z) =
        pathText decimal (nextAt a y) q ++ (closeText a y ++ z') := by
      cases tx : isType x with
      | true =>
        cases ty : isType y with
        | false => exact absurd e (type_ne_member ox tx ty _ _)
        | true =>
          exact type_inj ox oy tx ty
            (fun h => ⟨stops_rest px (.inl h) ex, fun w => by rw [h] at px ⊢; exact stops_type px ex w⟩)
            (fun h => ⟨stops_rest py (.inl h) ey, fun w => by rw [h] at py ⊢; exact stops_type py ey w⟩) e
      | false =>
        cases ty : isType y with
        | true => exact absurd e.symm (type_ne_member oy ty tx _ _)
        | false =>
          exact member_inj ox oy tx ty (stops_rest px (.inr (nextAt_member a tx)) ex)
            (stops_rest py (.inr (nextAt_member a ty)) ey) e
    obtain ⟨k1, k2⟩ := key
    subst k1
    obtain ⟨r1, r2⟩ := path_inj p q _ px py ex ey k2
    exact ⟨by rw [r1], List.append_cancel_left r2⟩

/-! ## The whole text -/

theorem stops_digit (b : Byte) (r : Bytes) (h : digitByte b = false) : Stops digitByte (b :: r) := fun c s e => by
  rw [← (List.cons.inj e).1]; exact h

/-- The number of missing steps is determined by the text. -/
theorem capped_inj : ∀ (m n : Nat) {u v : Bytes}, (∀ b r, u = b :: r → b ≠ 0x20) → (∀ b r, v = b :: r → b ≠ 0x20) →
    cappedText m ++ u = cappedText n ++ v → m = n ∧ u = v
  | 0, 0, _, _, _, _, e => ⟨rfl, e⟩
  | 0, 1, _, _, hu, _, e => by simp only [cappedText, List.nil_append, List.cons_append] at e; exact absurd rfl (hu _ _ e)
  | 0, n + 2, _, _, hu, _, e => by
    simp only [cappedText, List.nil_append, List.cons_append] at e; exact absurd rfl (hu _ _ e)
  | 1, 0, _, _, _, hv, e => by
    simp only [cappedText, List.nil_append, List.cons_append] at e; exact absurd rfl (hv _ _ e.symm)
  | m + 2, 0, _, _, _, hv, e => by
    simp only [cappedText, List.nil_append, List.cons_append] at e; exact absurd rfl (hv _ _ e.symm)
  | 1, 1, _, _, _, _, e => ⟨rfl, List.append_cancel_left e⟩
  | 1, n + 2, _, _, _, _, e => by
    obtain ⟨b, r, h⟩ := decimal_ne (n + 2)
    have hd := decimal_digits (n + 2) b (by rw [h]; simp)
    simp only [cappedText, List.append_assoc, h, List.cons_append, List.nil_append, List.cons.injEq, true_and] at e
    rw [← e.1] at hd; exact absurd hd (by decide)
  | m + 2, 1, _, _, _, _, e => by
    obtain ⟨b, r, h⟩ := decimal_ne (m + 2)
    have hd := decimal_digits (m + 2) b (by rw [h]; simp)
    simp only [cappedText, List.append_assoc, h, List.cons_append, List.nil_append, List.cons.injEq, true_and] at e
    rw [e.1] at hd; exact absurd hd (by decide)
  | m + 2, n + 2, _, _, _, _, e => by
    simp only [cappedText, List.append_assoc, List.cons_append, List.nil_append, List.cons.injEq, true_and] at e
    obtain ⟨e1, e2⟩ := cut (decimal_digits _) (decimal_digits _) (stops_digit _ _ (by decide))
      (stops_digit _ _ (by decide)) e
    simp only [List.cons.injEq, true_and] at e2
    exact ⟨decimal_inj e1, e2⟩

theorem end_capped (n : Nat) (x : Bytes) (hx : x = [] ∨ ∃ r, x = 0x3A :: 0x20 :: r) : End (cappedText n ++ x) := by
  match n with
  | 0 =>
    rcases hx with h | ⟨r, h⟩
    · exact .inl (by rw [h]; rfl)
    · exact .inr (.inr ⟨r, by rw [h]; rfl⟩)
  | 1 => exact .inr (.inl ⟨_, _, rfl, .inr rfl⟩)
  | n + 2 => exact .inr (.inl ⟨_, _, rfl, .inr rfl⟩)

def notParen (b : Byte) : Bool := b != 0x28

theorem range_none : rangeText 0 0 = [] := rfl

theorem range_one {a : Nat} (h : a ≠ 0) : rangeText a a =
    [0x20, 0x28, 0x61, 0x74, 0x20, 0x62, 0x79, 0x74, 0x65, 0x20] ++ decimal a ++ [0x29] := by
  unfold rangeText; rw [if_pos (.inl h), if_pos rfl]

theorem range_two {a b : Nat} (h : a ≠ b) : rangeText a b =
    [0x20, 0x28, 0x61, 0x74, 0x20, 0x62, 0x79, 0x74, 0x65, 0x73, 0x20] ++ decimal a ++ [0x2D] ++ decimal b ++
      [0x29] := by
  unfold rangeText; rw [if_pos (by omega), if_neg h]

theorem range_shape (a b : Nat) : (a = 0 ∧ b = 0) ∨ (a ≠ 0 ∧ a = b) ∨ a ≠ b := by omega

/-- What a range is written as determines it. -/
theorem range_inj {a b c d : Nat} (e : rangeText a b = rangeText c d) : a = c ∧ b = d := by
  rcases range_shape a b with ⟨h1, h2⟩ | ⟨h1, h2⟩ | h1 <;> rcases range_shape c d with ⟨h3, h4⟩ | ⟨h3, h4⟩ | h3
  · omega
  · subst h1 h2 h4; rw [range_none, range_one h3] at e; simp at e
  · subst h1 h2; rw [range_none, range_two h3] at e; simp at e
  · subst h2 h3 h4; rw [range_none, range_one h1] at e; simp at e
  · subst h2 h4
    rw [range_one h1, range_one h3, List.append_assoc, List.append_assoc, List.append_cancel_left_eq] at e
    obtain ⟨e1, _⟩ := cut (decimal_digits _) (decimal_digits _) (stops_digit _ _ (by decide))
      (stops_digit _ _ (by decide)) e
    exact ⟨decimal_inj e1, decimal_inj e1⟩
  · subst h2
    rw [range_one h1, range_two h3] at e
    simp at e
  · subst h3 h4; rw [range_none, range_two h1] at e; simp at e
  · subst h4
    rw [range_one h3, range_two h1] at e
    simp at e
  · rw [range_two h1, range_two h3] at e
    simp only [List.append_assoc, List.append_cancel_left_eq] at e
    obtain ⟨e1, e2⟩ := cut (decimal_digits _) (decimal_digits _) (stops_digit _ _ (by decide))
      (stops_digit _ _ (by decide)) e
    simp only [List.cons_append, List.nil_append, List.cons.injEq, true_and] at e2
    obtain ⟨e3, _⟩ := cut (decimal_digits _) (decimal_digits _) (stops_digit _ _ (by decide))
      (stops_digit _ _ (by decide)) e2
    exact ⟨decimal_inj e1, decimal_inj e3⟩

/-- A range begins with ` (` or is not written. -/
theorem range_cases (a b : Nat) : rangeText a b = [] ∨ ∃ r, rangeText a b = 0x20 :: 0x28 :: r := by
  unfold rangeText
  split
  · split
    · exact .inr ⟨_, rfl⟩
    · exact .inr ⟨_, rfl⟩
  · exact .inl rfl

theorem message_inj {m n : Bytes} (hm : ∀ b ∈ m, b ≠ 0x28) (hn : ∀ b ∈ n, b ≠ 0x28) {a b c d : Nat}
    (e : m ++ rangeText a b = n ++ rangeText c d) : m = n ∧ rangeText a b = rangeText c d := by
  have fm : ∀ b ∈ m, notParen b = true := fun b hb => bne_iff_ne.2 (hm b hb)
  have fn : ∀ b ∈ n, notParen b = true := fun b hb => bne_iff_ne.2 (hn b hb)
  have stop : ∀ r : Bytes, Stops notParen (0x28 :: r) := fun r b s e => by
    rw [← (List.cons.inj e).1]; decide
  have space : ∀ {x : Bytes}, (∀ b ∈ x, notParen b = true) → ∀ b ∈ x ++ [0x20], notParen b = true := by
    intro x hx b hb
    rcases List.mem_append.1 hb with hb | hb
    · exact hx b hb
    · rw [List.mem_singleton.1 hb]; decide
  have nil : Stops notParen [] := fun b s e => by simp at e
  rcases range_cases a b with h1 | ⟨r, h1⟩ <;> rcases range_cases c d with h2 | ⟨s, h2⟩ <;> rw [h1, h2] at e
  · exact ⟨by simpa using e, by rw [h1, h2]⟩
  · exfalso
    have : m ++ [] = (n ++ [0x20]) ++ (0x28 :: s) := by simpa using e
    have := (cut fm (space fn) nil (stop s) this).2
    simp at this
  · exfalso
    have : (m ++ [0x20]) ++ (0x28 :: r) = n ++ [] := by simpa using e
    have := (cut (space fm) fn (stop r) nil this).2
    simp at this
  · have : (m ++ [0x20]) ++ (0x28 :: r) = (n ++ [0x20]) ++ (0x28 :: s) := by simpa using e
    obtain ⟨e1, e2⟩ := cut (space fm) (space fn) (stop r) (stop s) this
    exact ⟨List.append_cancel_right e1, by rw [h1, h2, e2]⟩

/-! ## Lines -/

theorem lines_cons : ∀ (t rest : Bytes), OneLine t → lines (t ++ 0x0A :: rest) = t :: lines rest
  | [], rest, _ => by simp [lines]
  | b :: t, rest, h => by
    have hb : b ≠ 0x0A := h b (by simp)
    rw [List.cons_append, lines, if_neg hb, lines_cons t rest (fun c hc => h c (List.mem_cons_of_mem _ hc))]

theorem oneLine_append {a b : Bytes} (ha : OneLine a) (hb : OneLine b) : OneLine (a ++ b) := fun c hc => by
  rcases List.mem_append.1 hc with h | h
  · exact ha c h
  · exact hb c h

theorem oneLine_name {n : Bytes} (h : IsName n) : OneLine n := fun b hb => (name_space (h.1 b hb)).2.2.2.2.2

theorem oneLine_decimal (n : Nat) : OneLine (decimal n) := fun b hb =>
  (name_space (decimal_names n b hb)).2.2.2.2.2

theorem oneLine_lead (a : At) : OneLine a.lead := by
  cases a <;> simp [At.lead, OneLine]

theorem oneLine_step {types : Bool} {a : At} {x : Step} (h : Ok types a x) : OneLine (stepText a x) := by
  cases ht : isType x with
  | true =>
    obtain ⟨_, n, r, h2, h3, h4⟩ := type_head h ht
    rw [h2]
    refine oneLine_append (oneLine_append (oneLine_lead a) (oneLine_name h3)) ?_
    rcases h4 with h4 | h4 <;> subst h4 <;> simp [OneLine]
  | false =>
    rw [stepText_member a ht]
    refine oneLine_append (by split <;> simp [OneLine]) ?_
    cases x with
    | named n =>
      exact oneLine_append (a := [0x2E]) (by simp [OneLine]) (oneLine_name h)
    | unnamed n =>
      exact oneLine_append (a := [0x2E]) (by simp [OneLine]) (oneLine_decimal n)
    | index n =>
      exact oneLine_append (a := 0x5B :: decimal n)
        (oneLine_append (a := [0x5B]) (by simp [OneLine]) (oneLine_decimal n)) (by simp [OneLine])
    | key k =>
      exact oneLine_append (a := 0x5B :: k)
        (oneLine_append (a := [0x5B]) (by simp [OneLine]) (fun b hb => (h.1 b hb).2.2)) (by simp [OneLine])
    | _ => simp [isType] at ht

theorem oneLine_path {types : Bool} : ∀ (p : List Step) (a : At), Plain decimal types a p →
    OneLine (pathText decimal a p)
  | [], _, _ => by simp [pathText, OneLine]
  | x :: p, a, h => by
    obtain ⟨h1, h2⟩ := plain_cons h
    rw [pathText_cons]
    refine oneLine_append (oneLine_step h1) (oneLine_append (oneLine_path p _ h2) ?_)
    unfold closeText
    split <;> simp [OneLine]

theorem oneLine_capped : ∀ n : Nat, OneLine (cappedText n)
  | 0 => by simp [cappedText, OneLine]
  | 1 => by simp [cappedText, OneLine]
  | n + 2 => by
    refine oneLine_append (oneLine_append ?_ (oneLine_decimal _)) ?_ <;> simp [OneLine]

theorem oneLine_range (a b : Nat) : OneLine (rangeText a b) := by
  rcases range_shape a b with ⟨h1, h2⟩ | ⟨h1, h2⟩ | h1
  · subst h1 h2; simp [range_none, OneLine]
  · subst h2; rw [range_one h1]
    refine oneLine_append (oneLine_append ?_ (oneLine_decimal _)) ?_ <;> simp [OneLine]
  · rw [range_two h1]
    refine oneLine_append (oneLine_append (oneLine_append (oneLine_append ?_ (oneLine_decimal _)) ?_)
      (oneLine_decimal _)) ?_ <;> simp [OneLine]

theorem oneLine_text {types : Bool} {r : Reported} (h : Plain decimal types .start r.path) (hm : OneLine r.message) :
    OneLine r.text := by
  unfold Reported.text
  rw [formatPath_text]
  exact oneLine_append (oneLine_append (oneLine_append (oneLine_append (oneLine_path _ _ h) (oneLine_capped _))
    (by simp [OneLine])) hm) (oneLine_range _ _)

end Musli.Trace
