import Verif.Model.Zero.Discriminant
/-!
# C59: discriminants of derived enums
-/
namespace Musli.Zero.Discriminant
open Musli Musli.Zero

theorem checked_some {pointer : Nat} {r : DRepr} {v w : Int} (h : r.checked pointer v = some w) :
    w = v ∧ r.inRange pointer v := by
  unfold DRepr.checked at h
  split at h
  · cases h; exact ⟨rfl, by assumption⟩
  · cases h

theorem checked_pos {pointer : Nat} {r : DRepr} {v : Int} (h : r.inRange pointer v) :
    r.checked pointer v = some v := by rw [DRepr.checked, if_pos h]

/-- Integers which the macro recognizes have the value it takes them to have. -/
theorem asInt_value {pointer : Nat} {r : DRepr} : ∀ (e : DExpr) {neg : Bool} {n : Nat}, asInt e = some (neg, n) →
    (∀ {v}, e.value pointer r = some v →
      r.inRange pointer v ∧ v = (if neg then -(n : Int) else n) ∧ (neg = true → r.signed = true)) ∧
    (∀ {v}, r.signed = true → e.negated pointer r = some v →
      r.inRange pointer v ∧ v = (if neg then (n : Int) else -n))
  | .lit n s, neg, k, h => by
    simp only [asInt, Option.some.injEq, Prod.mk.injEq] at h
    obtain ⟨rfl, rfl⟩ := h
    constructor
    · intro v hv
      simp only [DExpr.value] at hv
      split at hv
      · obtain ⟨rfl, h⟩ := checked_some hv; exact ⟨h, by simp, by simp⟩
      · cases hv
    · intro v _ hv
      simp only [DExpr.negated] at hv
      split at hv
      · obtain ⟨rfl, h⟩ := checked_some hv; exact ⟨h, by simp⟩
      · cases hv
  | .group e, neg, k, h => by
    simp only [asInt] at h
    have ih := asInt_value (pointer := pointer) (r := r) e h
    simp only [DExpr.value, DExpr.negated]
    exact ih
  | .neg e, neg, k, h => by
    simp only [asInt] at h
    cases ha : asInt e with
    | none => rw [ha] at h; cases h
    | some p =>
      obtain ⟨neg', k'⟩ := p
      rw [ha] at h
      simp only [Option.map_some, Option.some.injEq, Prod.mk.injEq] at h
      obtain ⟨rfl, rfl⟩ := h
      have ih := asInt_value (pointer := pointer) (r := r) e ha
      constructor
      · intro v hv
        simp only [DExpr.value] at hv
        split at hv
        · next hs =>
          obtain ⟨h1, h2⟩ := ih.2 hs hv
          exact ⟨h1, by rw [h2]; cases neg' <;> rfl, fun _ => hs⟩
        · cases hv
      · intro v hs hv
        simp only [DExpr.negated, hs, if_true] at hv
        cases hn : e.negated pointer r with
        | none => rw [hn] at hv; cases hv
        | some w =>
          rw [hn, Option.bind_some] at hv
          obtain ⟨h1, h2⟩ := ih.2 hs hn
          obtain ⟨rfl, h3⟩ := checked_some hv
          refine ⟨h3, ?_⟩
          rw [h2]
          cases neg' <;> simp
  | .add _ _, _, _, h => by simp [asInt] at h
  | .other _, _, _, h => by simp [asInt] at h

/-- `host` is large enough to parse the literals of the target. -/
theorem inRange_natAbs {pointer host : Nat} (hh : pointer ≤ host) {r : DRepr} {v : Int} (h0 : r ≠ .i 0 ∧ 0 < pointer)
    (h : r.inRange pointer v) : v.natAbs < 2 ^ parseBits host r ∧
      (r.inRange pointer (v + 1) → (v + 1).natAbs < 2 ^ parseBits host r) := by
  have hp : ∀ b : Nat, b ≠ 0 → (2 : Int) ^ (b - 1) + 2 ^ (b - 1) = 2 ^ b := by
    intro b hb
    obtain ⟨c, rfl⟩ : ∃ c, b = c + 1 := ⟨b - 1, by omega⟩
    simp only [Nat.add_sub_cancel, Int.pow_succ]
    omega
  have hpos : ∀ b : Nat, (0 : Int) < 2 ^ b := fun b => Int.pow_pos (by decide)
  have hc : ∀ b : Nat, ((2 ^ b : Nat) : Int) = 2 ^ b := fun b => by simp
  cases r with
  | u bits =>
    simp only [DRepr.inRange, parseBits] at h ⊢
    have := hc bits
    constructor
    · omega
    · intro h'; omega
  | i bits =>
    simp only [DRepr.inRange, parseBits] at h ⊢
    have hb : bits ≠ 0 := fun hb => h0.1 (by rw [hb])
    have := hp bits hb
    have := hc bits
    have := hpos (bits - 1)
    constructor
    · omega
    · intro h'; omega
  | isize =>
    simp only [DRepr.inRange, parseBits] at h ⊢
    have := hp pointer (by omega)
    have := hc pointer
    have := hpos (pointer - 1)
    have : (2 : Nat) ^ pointer ≤ 2 ^ host := Nat.pow_le_pow_right (by omega) hh
    constructor
    · omega
    · intro h'; omega

theorem nextIndex_value {pointer host : Nat} (hh : pointer ≤ host) {r : DRepr} (h0 : r ≠ .i 0 ∧ 0 < pointer)
    {e : DExpr} {neg : Bool} {n : Nat} {v : Int} (ha : asInt e = some (neg, n))
    (hv : e.value pointer r = some v) (hn : r.inRange pointer (v + 1)) :
    ∃ e', nextIndex host r neg n = .ok e' ∧ e'.value pointer r = some (v + 1) := by
  obtain ⟨hr, hvn, hs⟩ := (asInt_value e ha).1 hv
  obtain ⟨hb, hb'⟩ := inRange_natAbs hh h0 hr
  have hb' := hb' hn
  cases neg with
  | false =>
    have hvn : v = (n : Int) := by simpa using hvn
    subst hvn
    have h1 : n < 2 ^ parseBits host r := by simpa using hb
    have h2 : n + 1 < 2 ^ parseBits host r := by
      have : ((n : Int) + 1).natAbs = n + 1 := by omega
      rwa [this] at hb'
    refine ⟨.lit (n + 1) (some r), ?_, ?_⟩
    · unfold nextIndex
      cases hsg : r.signed <;> simp [numSigned, numUnsigned, h1, h2]
    · simp only [DExpr.value, or_true, if_true]
      exact checked_pos (by simpa using hn)
  | true =>
    have hsg := hs rfl
    have hvn : v = -(n : Int) := by simpa using hvn
    subst hvn
    have h1 : n < 2 ^ parseBits host r := by simpa using hb
    by_cases hz : n = 0
    · subst hz
      have h2 : 1 < 2 ^ parseBits host r := by simpa using hb'
      refine ⟨.lit 1 (some r), ?_, ?_⟩
      · unfold nextIndex; simp [hsg, numSigned, h1, h2]
      · simp only [DExpr.value, or_true, if_true]
        exact checked_pos (by simpa using hn)
    · have he : -(n : Int) + 1 = -((n - 1 : Nat) : Int) := by omega
      rw [he] at hn ⊢
      by_cases h1' : n = 1
      · subst h1'
        refine ⟨.lit 0 (some r), ?_, ?_⟩
        · unfold nextIndex; simp [hsg, numSigned, h1]
        · simp only [DExpr.value, or_true, if_true]
          exact checked_pos (by simpa using hn)
      · refine ⟨.neg (.lit (n - 1) (some r)), ?_, ?_⟩
        · have hne : n - 1 ≠ 0 := by omega
          have hb : (n - 1 != 0) = true := by simp [hne]
          unfold nextIndex; simp [hsg, numSigned, h1, hz, hb]
        · simp only [DExpr.value, hsg, DExpr.negated, or_true, if_true]
          exact checked_pos hn

theorem value_inRange {pointer : Nat} {r : DRepr} : ∀ (e : DExpr),
    (∀ {v}, e.value pointer r = some v → r.inRange pointer v) ∧
    (∀ {v}, e.negated pointer r = some v → r.inRange pointer v)
  | .lit n s => by
    constructor <;> intro v hv <;> simp only [DExpr.value, DExpr.negated] at hv <;> split at hv
    · obtain ⟨rfl, h⟩ := checked_some hv; exact h
    · cases hv
    · obtain ⟨rfl, h⟩ := checked_some hv; exact h
    · cases hv
  | .group e => by
    have ih := value_inRange (pointer := pointer) (r := r) e
    simp only [DExpr.value, DExpr.negated]
    exact ih
  | .neg e => by
    have ih := value_inRange (pointer := pointer) (r := r) e
    constructor
    · intro v hv
      simp only [DExpr.value] at hv
      split at hv
      · exact ih.2 hv
      · cases hv
    · intro v hv
      simp only [DExpr.negated] at hv
      split at hv
      · rw [Option.bind_eq_some_iff] at hv
        obtain ⟨w, -, hw⟩ := hv
        obtain ⟨rfl, h⟩ := checked_some hw; exact h
      · cases hv
  | .add a b => by
    constructor
    · intro v hv
      simp only [DExpr.value, Option.bind_eq_some_iff] at hv
      obtain ⟨x, -, y, -, hw⟩ := hv
      obtain ⟨rfl, h⟩ := checked_some hw; exact h
    · intro v hv
      simp only [DExpr.negated, Option.bind_eq_some_iff] at hv
      obtain ⟨x, -, y, -, w, -, hw⟩ := hv
      obtain ⟨rfl, h⟩ := checked_some hw; exact h
  | .other f => by
    constructor
    · intro v hv
      simp only [DExpr.value, Option.bind_eq_some_iff] at hv
      obtain ⟨x, -, hw⟩ := hv
      obtain ⟨rfl, h⟩ := checked_some hw; exact h
    · intro v hv
      simp only [DExpr.negated, Option.bind_eq_some_iff] at hv
      obtain ⟨x, -, hw⟩ := hv
      obtain ⟨rfl, h⟩ := checked_some hw; exact h

theorem enumerate_spec {pointer host : Nat} (hh : pointer ≤ host) {r : DRepr} (h0 : r ≠ .i 0 ∧ 0 < pointer)
    (h1 : r.inRange pointer 0) (h2 : r.inRange pointer ((1 : Nat) : Int)) : ∀ (given : List (Option DExpr)) (prev : Option Int) (current : Option DExpr)
    (ds : List Int), current.map (·.value pointer r) = prev.map some →
    discriminants pointer r prev given = some ds →
    ∃ es, enumerate host r current given = .ok es ∧ es.map (·.value pointer r) = ds.map some
  | [], prev, current, ds, _, hd => by
    simp only [discriminants, Option.some.injEq] at hd
    subst hd
    exact ⟨[], rfl, rfl⟩
  | g :: rest, prev, current, ds, hc, hd => by
    -- the next expression has the next value
    suffices hnext : ∀ d, (match g, prev with
        | some e, _ => e.value pointer r
        | none, some p => r.checked pointer (p + 1)
        | none, none => some 0) = some d →
        ∃ e, enumNext host r current g = .ok e ∧ e.value pointer r = some d by
      simp only [discriminants] at hd
      split at hd
      · cases hd
      · next d hd' =>
        obtain ⟨e, he, hev⟩ := hnext d hd'
        rw [Option.map_eq_some_iff] at hd
        obtain ⟨ds', hds, rfl⟩ := hd
        obtain ⟨es, hes, hv⟩ := enumerate_spec hh h0 h1 h2 rest (some d) (some e) ds' (by simp [hev]) hds
        exact ⟨e :: es, by simp only [enumerate, he, hes], by simp [hev, hv]⟩
    intro d hd
    cases g with
    | some e => exact ⟨e, rfl, hd⟩
    | none =>
      cases prev with
      | none =>
        cases current with
        | some e => simp at hc
        | none =>
          simp only [Option.some.injEq] at hd
          subst hd
          refine ⟨_, rfl, ?_⟩
          simp only [DExpr.value, or_true, if_true]
          exact checked_pos h1
      | some p =>
        cases current with
        | none => simp at hc
        | some e =>
          have hev : e.value pointer r = some p := by simpa using hc
          obtain ⟨rfl, hr⟩ := checked_some hd
          cases ha : asInt e with
          | some q =>
            obtain ⟨neg, n⟩ := q
            obtain ⟨e', h4, h3⟩ := nextIndex_value hh h0 ha hev hr
            exact ⟨e', by simp only [enumNext, ha, h4], h3⟩
          | none =>
            refine ⟨.add e (.lit 1 (some r)), by simp only [enumNext, ha], ?_⟩
            simp only [DExpr.value, hev, Option.bind_some, or_true, if_true]
            rw [checked_pos h2, Option.bind_some]
            exact checked_pos hr

/-- The types there are: `u8` to `u128` and `i8` to `i128`, and pointers of 16, 32 or 64 bits. -/
def Exists (pointer : Nat) : DRepr → Prop
  | .u bits => bits ∈ [8, 16, 32, 64, 128]
  | .i bits => bits ∈ [8, 16, 32, 64, 128]
  | .isize => pointer ∈ [16, 32, 64]

/-- **C59**: for every enum which the compiler accepts, that is one whose discriminants are defined, whatever
mixture of given and implied ones, signs and expressions it has, the derive macro succeeds and the constants it
compares tags with are these discriminants. For `isize`, the machine which compiles has pointers which are not
smaller than those of the target. -/
theorem C59_discriminants {pointer host : Nat} {r : DRepr} (hr : Exists pointer r)
    (hh : r = .isize → pointer ≤ host) {given : List (Option DExpr)} {ds : List Int}
    (hd : discriminants pointer r none given = some ds) :
    ∃ es, enumerate host r none given = .ok es ∧ es.map (·.value pointer r) = ds.map some := by
  by_cases hi : r = .isize
  · subst hi
    refine enumerate_spec (hh rfl) ⟨by simp, ?_⟩ ?_ ?_ given none none ds rfl hd
    all_goals
      simp only [Exists, List.mem_cons, List.not_mem_nil, or_false] at hr
      rcases hr with rfl | rfl | rfl <;> simp [DRepr.inRange]
  · -- the size of pointers does not matter
    have hv : ∀ e : DExpr, e.value pointer r = e.value 1 r ∧ e.negated pointer r = e.negated 1 r := by
      have hc : ∀ v, r.checked pointer v = r.checked 1 v := by
        intro v
        cases r with
        | u bits => rfl
        | i bits => rfl
        | isize => exact absurd rfl hi
      have hc' : r.checked pointer = r.checked 1 := funext hc
      intro e
      induction e with
      | lit n s => simp only [DExpr.value, DExpr.negated, hc]; exact ⟨trivial, trivial⟩
      | neg e ih => simp only [DExpr.value, DExpr.negated, hc, ih]; exact ⟨trivial, trivial⟩
      | group e ih => simp only [DExpr.value, DExpr.negated, ih]; exact ⟨trivial, trivial⟩
      | add a b iha ihb => simp only [DExpr.value, DExpr.negated, hc, iha, ihb]; exact ⟨trivial, trivial⟩
      | other v => simp only [DExpr.value, DExpr.negated, hc']; exact ⟨trivial, trivial⟩
    have hc : ∀ v, r.checked pointer v = r.checked 1 v := by
      intro v
      cases r with
      | u bits => rfl
      | i bits => rfl
      | isize => exact absurd rfl hi
    have hd' : ∀ (given : List (Option DExpr)) prev,
        discriminants pointer r prev given = discriminants 1 r prev given := by
      intro given
      induction given with
      | nil => intro _; rfl
      | cons g rest ih => intro prev; simp only [discriminants, hc, (hv _).1, ih]
    have he : ∀ (given : List (Option DExpr)) cur,
        enumerate host r cur given = enumerate (host + 1) r cur given := by
      intro given
      induction given with
      | nil => intro _; rfl
      | cons g rest ih =>
        intro cur
        have hp : parseBits host r = parseBits (host + 1) r := by
          cases r with
          | u bits => rfl
          | i bits => rfl
          | isize => exact absurd rfl hi
        simp only [enumerate, enumNext, nextIndex, hp, ih]
    rw [hd'] at hd
    rw [he]
    simp only [(hv _).1]
    refine enumerate_spec (by omega) ⟨?_, by omega⟩ ?_ ?_ given none none ds rfl hd
    · rintro rfl; simp [Exists] at hr
    all_goals
      cases r with
      | u bits =>
        simp only [Exists, List.mem_cons, List.not_mem_nil, or_false] at hr
        rcases hr with rfl | rfl | rfl | rfl | rfl <;> simp [DRepr.inRange]
      | i bits =>
        simp only [Exists, List.mem_cons, List.not_mem_nil, or_false] at hr
        rcases hr with rfl | rfl | rfl | rfl | rfl <;> simp [DRepr.inRange]
      | isize => exact absurd rfl hi

/-! ## Examples -/

/-- `#[repr(i8)] enum E { A = -2, B, C, D, E = -128, F, G = <expr of 5>, H, I = - -6, J }` -/
def sample : List (Option DExpr) :=
  [some (.neg (.lit 2 none)), none, none, none, some (.neg (.group (.lit 128 none))), none,
    some (.other fun _ => some 5), none, some (.neg (.neg (.lit 6 (some (.i 8))))), none]

example : discriminants 64 (.i 8) none sample = some [-2, -1, 0, 1, -128, -127, 5, 6, 6, 7] := by decide +kernel

example : (enumerate 64 (.i 8) none sample).toOption.map (·.map (·.value 64 (.i 8))) =
    some ([-2, -1, 0, 1, -128, -127, 5, 6, 6, 7].map some) := by decide +kernel

/-- Where it matters: a literal of an `isize` enum which only the target can represent. The compiler accepts it
and the derive macro, which runs on the smaller machine, does not. -/
theorem C59_cross_compilation :
    discriminants 64 .isize none [some (.lit (2 ^ 40) none), none] = some [2 ^ 40, 2 ^ 40 + 1] ∧
    (enumerate 32 .isize none [some (.lit (2 ^ 40) none), none]).toOption.isNone = true := by
  constructor <;> decide +kernel

/-- The derive macro does not count on from a negative number in an unsigned type: it is an error of the macro itself. -/
theorem nextIndex_unsigned (host bits n : Nat) (hn : n ≠ 0) (hn1 : n ≠ 1) :
    nextIndex host (.u bits) true n = .error () := by
  have h : (DRepr.u bits).signed = false := rfl
  simp only [nextIndex, h, Bool.false_eq_true, if_false, numUnsigned, numSigned, parseBits]
  have h1 : (n - 1 != 0) = true := by simp; omega
  have h2 : (n != 0) = true := by simpa using hn
  by_cases hb : n < 2 ^ bits
  · simp [hb, h1, h2]
  · simp [hb]

end Musli.Zero.Discriminant
