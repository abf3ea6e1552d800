import Verif.Proofs.Zero.Swiss
/-!
# C44, C45, C46, C47: swiss tables in zero-copy buffers
-/
namespace Musli.Zero.Swiss
open Musli

/-- The implementations of groups of control bytes: x86, AArch64, and all other platforms with
64 bits, of either byte order. -/
inductive Platform where
  | sse2 | neon | little | big
deriving DecidableEq

/-- The group of a platform. -/
def Platform.group : Platform → Group
  | .sse2 => Swiss.sse2
  | .neon => Swiss.neon
  | .little => generic false
  | .big => generic true

theorem Platform.lawful : (p : Platform) → Lawful p.group
  | .sse2 => sse2_lawful
  | .neon => neon_lawful
  | .little => generic_lawful false
  | .big => generic_lawful true

/-- Two platforms whose groups have the same number of bytes. -/
def SameWidth (p q : Platform) : Prop := p.group.width = q.group.width

theorem Good.transfer {V : Type} {g g' : Group} (hw : g.width = g'.width) {b : Nat} {hash : V → BitVec 64} {ins : List V}
    {ctrl : Bytes} {entries : List V} {c : Nat → Byte} (h : Good g b hash ins ctrl entries c) :
    Good g' b hash ins ctrl entries c := by
  obtain ⟨h1, h2, h3, h4, h5, h6⟩ := h
  rw [hw] at h1 h5
  exact ⟨h1, h2, h3, h4, h5, h6⟩

section
variable {K V : Type} [DecidableEq K] (hash : K → BitVec 64)

theorem find_stored {p q : Platform} (hpq : SameWidth p q) {W : Type} (hash : W → BitVec 64) (zero : W) (vs : List W)
    (hl : vs.length * 8 < 2 ^ 64) :
    ∃ t, store p.group hash zero vs = .ok t ∧ ∀ (eq : W → Bool) (h : BitVec 64),
      (∃ v ∈ vs, t.find q.group h eq = .ok (some v) ∧ eq v = true) ∨
      (t.find q.group h eq = .ok none ∧ ∀ v ∈ vs, hash v = h → eq v = false) := by
  obtain ⟨b, t, c, h1, h2, h3, h4, -, -⟩ := store_ok p.lawful hash zero vs hl
  exact ⟨t, h1, fun eq h => find_ok q.lawful (h2.transfer hpq) h3 h4 eq h⟩

/-- **C44**: on every platform and whatever the hash function does, `store_map` succeeds for every
number of entries for which the table fits into the address space. In the map, `get` of a key never
fails, and returns the value of an entry with this key, or nothing if there is no entry with it;
`contains_key` agrees. -/
theorem C44_map (p q : Platform) (hpq : SameWidth p q) (zero : K × V) (es : List (K × V)) (hl : es.length * 8 < 2 ^ 64) :
    ∃ m, storeMap p.group hash zero es = .ok m ∧ ∀ k,
      ((∃ v, getMap q.group hash m k = .ok (some v) ∧ (k, v) ∈ es ∧ containsMap q.group hash m k = .ok true) ∨
       (getMap q.group hash m k = .ok none ∧ (∀ v, (k, v) ∉ es) ∧ containsMap q.group hash m k = .ok false)) := by
  obtain ⟨m, h1, h2⟩ := find_stored hpq (fun e : K × V => hash e.1) zero es hl
  refine ⟨m, h1, fun k => ?_⟩
  unfold getMap containsMap
  rcases h2 (fun e => e.1 == k) (hash k) with ⟨v, hv, h3, h4⟩ | ⟨h3, h4⟩
  · rw [h3]
    obtain ⟨k', v⟩ := v
    rw [beq_iff_eq] at h4
    cases h4
    exact .inl ⟨v, rfl, hv, rfl⟩
  · rw [h3]
    refine .inr ⟨rfl, fun v hv => ?_, rfl⟩
    have := h4 (k, v) hv rfl
    simp at this

/-- **C44** for entries with different keys: the map is the association list. -/
theorem C44_map_unique (p : Platform) (zero : K × V) (es : List (K × V)) (hl : es.length * 8 < 2 ^ 64)
    (hu : (es.map Prod.fst).Nodup) :
    ∃ m, storeMap p.group hash zero es = .ok m ∧
      (∀ k, getMap p.group hash m k = .ok (es.lookup k)) ∧
      (∀ k, containsMap p.group hash m k = .ok (decide (k ∈ es.map Prod.fst))) := by
  obtain ⟨m, h1, h2⟩ := C44_map hash p p rfl zero es hl
  have hlook : ∀ (es : List (K × V)), (es.map Prod.fst).Nodup → ∀ k v, (k, v) ∈ es → es.lookup k = some v := by
    intro es
    induction es with
    | nil => intro _ k v h; cases h
    | cons e es ih =>
      intro hu k v h
      rw [List.map_cons, List.nodup_cons] at hu
      rcases List.mem_cons.1 h with rfl | h
      · simp [List.lookup]
      · have hne : k ≠ e.1 := by
          rintro rfl
          exact hu.1 (List.mem_map.2 ⟨_, h, rfl⟩)
        rw [List.lookup_cons]
        have : (k == e.1) = false := by simpa using hne
        rw [this]
        exact ih hu.2 k v h
  have hnone : ∀ (es : List (K × V)) k, (∀ v, (k, v) ∉ es) → es.lookup k = none := by
    intro es k
    induction es with
    | nil => intro _; rfl
    | cons e es ih =>
      intro h
      have hne : k ≠ e.1 := by
        rintro rfl
        exact h e.2 (by simp)
      rw [List.lookup_cons]
      have : (k == e.1) = false := by simpa using hne
      rw [this]
      exact ih (fun v hv => h v (List.mem_cons_of_mem _ hv))
  refine ⟨m, h1, fun k => ?_, fun k => ?_⟩
  · rcases h2 k with ⟨v, h3, h4, -⟩ | ⟨h3, h4, -⟩
    · rw [h3, hlook es hu k v h4]
    · rw [h3, hnone es k h4]
  · rcases h2 k with ⟨v, -, h4, h3⟩ | ⟨-, h4, h3⟩
    · rw [h3, decide_eq_true (List.mem_map.2 ⟨_, h4, rfl⟩)]
    · rw [h3, decide_eq_false]
      intro hm
      obtain ⟨⟨k', v⟩, h5, rfl⟩ := List.mem_map.1 hm
      exact h4 v h5

/-- **C44** for sets. -/
theorem C44_set (p q : Platform) (hpq : SameWidth p q) (zero : K) (xs : List K) (hl : xs.length * 8 < 2 ^ 64) :
    ∃ m, storeSet p.group hash zero xs = .ok m ∧ ∀ x, containsSet q.group hash m x = .ok (decide (x ∈ xs)) := by
  obtain ⟨m, h1, h2⟩ := find_stored hpq hash zero xs hl
  refine ⟨m, h1, fun x => ?_⟩
  unfold containsSet
  rcases h2 (fun e => e == x) (hash x) with ⟨v, hv, h3, h4⟩ | ⟨h3, h4⟩
  · rw [beq_iff_eq] at h4
    subst h4
    rw [h3, decide_eq_true hv]
    rfl
  · rw [h3, decide_eq_false]
    · rfl
    · intro hx
      have := h4 x hx rfl
      simp at this

end

/-! ## C45: portability -/

/-- **C45** as one wants it: a table built on one platform can be used on another one. -/
def Portable : Prop :=
  ∀ (p q : Platform) (hash : Nat → BitVec 64) (zero : Nat × Nat) (es : List (Nat × Nat)), es.length * 8 < 2 ^ 64 →
    (es.map Prod.fst).Nodup → ∃ m, storeMap p.group hash zero es = .ok m ∧
      ∀ k, getMap q.group hash m k = .ok (es.lookup k)

/-- **C45** is false: a table with four entries built on x86 does not have one of its keys on other
platforms, and lookups in a table built there fail on x86. -/
theorem C45_full_statement_false : ¬ Portable := by
  intro h
  obtain ⟨m, h1, h2⟩ := h .sse2 .little (fun k => BitVec.ofNat 64 (k % 8)) (0, 0)
    [(5, 1), (13, 2), (21, 3), (29, 4)] (by decide) (by decide)
  have h3 : storeMap Platform.sse2.group (fun k => BitVec.ofNat 64 (k % 8)) (0, 0)
    [(5, 1), (13, 2), (21, 3), (29, 4)] = .ok m := h1
  have h4 := h2 29
  have key : (match storeMap Platform.sse2.group (fun k => BitVec.ofNat 64 (k % 8)) (0, 0)
      [(5, 1), (13, 2), (21, 3), (29, 4)] with
    | .ok m => getMap Platform.little.group (fun k => BitVec.ofNat 64 (k % 8)) m 29
    | .error e => .error e) = .ok none := by decide +kernel
  rw [h3] at key
  dsimp only at key
  rw [h4] at key
  revert key
  decide

/-- The other direction: an error. -/
theorem C45_other_direction_fails :
    (match storeMap Platform.little.group (fun k => BitVec.ofNat 64 (k % 8)) (0, 0) [(5, 1), (13, 2)] with
    | .ok m => getMap Platform.sse2.group (fun k => BitVec.ofNat 64 (k % 8)) m 5
    | .error e => .error e) = .error .bounds := by decide +kernel

/-- **C45**, what holds: a table built on one platform can be used on another one whose groups have the
same width, i.e. on all 64-bit platforms but x86. -/
theorem C45_same_width_partial {K V : Type} [DecidableEq K] (hash : K → BitVec 64) (p q : Platform)
    (hpq : SameWidth p q) (zero : K × V) (es : List (K × V)) (hl : es.length * 8 < 2 ^ 64)
    (hu : (es.map Prod.fst).Nodup) :
    ∃ m, storeMap p.group hash zero es = .ok m ∧ ∀ k, getMap q.group hash m k = .ok (es.lookup k) := by
  obtain ⟨m, h1, h2⟩ := C44_map hash p q hpq zero es hl
  obtain ⟨m', h1', h2', -⟩ := C44_map_unique hash p zero es hl hu
  obtain ⟨m2, k1, k2⟩ := C44_map hash p p rfl zero es hl
  rw [h1] at h1' k1
  cases h1'
  cases k1
  refine ⟨m, h1, fun k => ?_⟩
  have e := h2' k
  rcases h2 k with ⟨v, g1, g2, -⟩ | ⟨g1, g2, -⟩
  · rcases k2 k with ⟨v', j1, j2, -⟩ | ⟨j1, j2, -⟩
    · rw [← e, g1, j1]
      -- keys are unique
      have : v = v' := by
        have huniq : ∀ (es : List (K × V)), (es.map Prod.fst).Nodup → (k, v) ∈ es → (k, v') ∈ es → v = v' := by
          intro es
          induction es with
          | nil => intro _ h; cases h
          | cons x es ih =>
            intro hu h h'
            rw [List.map_cons, List.nodup_cons] at hu
            rcases List.mem_cons.1 h with rfl | h3
            · rcases List.mem_cons.1 h' with h4 | h4
              · cases h4; rfl
              · exact absurd (List.mem_map.2 ⟨_, h4, rfl⟩) hu.1
            · rcases List.mem_cons.1 h' with rfl | h4
              · exact absurd (List.mem_map.2 ⟨(k, v), h3, rfl⟩) hu.1
              · exact ih hu.2 h3 h4
        exact huniq es hu g2 j2
      rw [this]
    · exact absurd g2 (j2 v)
  · rcases k2 k with ⟨v', j1, j2, -⟩ | ⟨j1, j2, -⟩
    · exact absurd j2 (g2 v')
    · rw [← e, g1, j1]

example : SameWidth .neon .big ∧ SameWidth .little .big ∧ ¬ SameWidth .sse2 .neon := by
  unfold SameWidth; decide

/-! ## C46: the length -/

/-- **C46** as documented: `len` is the number of entries. -/
def LenIsCount : Prop :=
  ∀ (p : Platform) (hash : Nat → BitVec 64) (zero : Nat × Nat) (es : List (Nat × Nat)), es.length * 8 < 2 ^ 64 →
    ∃ m, storeMap p.group hash zero es = .ok m ∧ m.len = es.length

/-- **C46**, for maps and sets: exactly which number `len` returns, where `B` is the number of buckets:
the number of entries if there are fewer than eight, otherwise it is too large by `B / 8 - 1`. -/
theorem C46_len_partial {V : Type} (p : Platform) (hash : V → BitVec 64) (zero : V) (vs : List V)
    (hl : vs.length * 8 < 2 ^ 64) :
    ∃ m, store p.group hash zero vs = .ok m ∧
      (vs.length < 8 → m.len = vs.length) ∧
      (8 ≤ vs.length → ∃ B, (∃ b, B = 2 ^ b) ∧ B / 8 * 7 ≥ vs.length ∧ 16 ≤ B ∧ m.len = vs.length + B / 8 - 1) := by
  obtain ⟨b, t, c, h1, -, -, h4, h5, h6⟩ := store_ok p.lawful hash zero vs hl
  refine ⟨t, h1, fun h => ?_, fun h => ?_⟩
  · unfold capacityToBuckets at h5
    rw [if_pos h] at h5
    have h5 := (Option.some.inj h5).symm
    unfold maskToCapacity at h6
    have hB : 2 ^ b - 1 < 8 := by rw [h5]; split <;> omega
    rw [if_pos hB] at h6
    omega
  · obtain ⟨b', k1, -, k3, -⟩ := buckets_spec _ _ h5
    have hbig : 9 ≤ 2 ^ b := by omega
    have hb4 : 4 ≤ b := by
      rcases Nat.lt_or_ge b 4 with h7 | h7
      · have := Nat.pow_le_pow_right (n := 2) (by decide) (show b ≤ 3 by omega)
        omega
      · exact h7
    have h16 := Nat.pow_le_pow_right (n := 2) (by decide) hb4
    have hdiv : 2 ^ b = 8 * 2 ^ (b - 3) := by
      rw [show (8 : Nat) = 2 ^ 3 from rfl, ← Nat.pow_add]; congr 1; omega
    unfold maskToCapacity at h6 k3
    rw [if_neg (by omega)] at h6 k3
    refine ⟨2 ^ b, ⟨b, rfl⟩, ?_, by omega, ?_⟩
    · rw [show 2 ^ b - 1 + 1 = 2 ^ b by omega] at k3
      exact k3
    · rw [show 2 ^ b - 1 + 1 = 2 ^ b by omega] at h6
      omega

/-- **C46** is false: with eight entries, `len` is nine. -/
theorem C46_full_statement_false : ¬ LenIsCount := by
  intro h
  obtain ⟨m, h1, h2⟩ := h .sse2 (fun k => BitVec.ofNat 64 k) (0, 0)
    [(0, 0), (1, 0), (2, 0), (3, 0), (4, 0), (5, 0), (6, 0), (7, 0)] (by decide)
  have key : (match storeMap Platform.sse2.group (fun k => BitVec.ofNat 64 k) (0, 0)
      [(0, 0), (1, 0), (2, 0), (3, 0), (4, 0), (5, 0), (6, 0), (7, 0)] with
    | .ok m => m.len
    | .error _ => 0) = 9 := by decide +kernel
  rw [h1] at key
  dsimp only at key
  rw [h2] at key
  revert key
  decide

/-! ## C47: binding -/

/-- **C47** as one wants it: a map of valid entries can be bound. `valid` says which entries are
accepted by validation, `zero` is the entry whose bytes are all zero. -/
def Bindable : Prop :=
  ∀ (p : Platform) (hash : Nat → BitVec 64) (valid : Nat × Nat → Bool) (zero : Nat × Nat) (es : List (Nat × Nat)),
    es.length * 8 < 2 ^ 64 → es.all valid = true →
    ∃ m, storeMap p.group hash zero es = .ok m ∧ m.bind valid = .ok m

/-- **C47** is false for keys like `NonZeroU32` which are never zero: no map of them can be bound. -/
theorem C47_full_statement_false : ¬ Bindable := by
  intro h
  obtain ⟨m, h1, h2⟩ := h .sse2 (fun k => BitVec.ofNat 64 k) (fun e => e.1 != 0) (0, 0) [(1, 10)] (by decide) (by decide)
  have key : (match storeMap Platform.sse2.group (fun k => BitVec.ofNat 64 k) (0, 0) [(1, 10)] with
    | .ok m => (match m.bind (fun e => e.1 != 0) with
      | .ok _ => true
      | .error _ => false)
    | .error _ => true) = false := by decide +kernel
  rw [h1] at key
  dsimp only at key
  rw [h2] at key
  cases key

theorem insertAll_entries {V : Type} (g : Group) (hash : V → BitVec 64) (P : V → Prop) : ∀ (vs : List V) (t t' : Table V),
    insertAll g hash vs t = .ok t' → (∀ x ∈ t.entries, P x) → (∀ x ∈ vs, P x) → ∀ x ∈ t'.entries, P x
  | [], t, t', h, h1, _ => by
    cases h
    exact h1
  | v :: vs, t, t', h, h1, h2 => by
    unfold insertAll at h
    cases hi : t.insert g (hash v) v with
    | error e => rw [hi] at h; cases h
    | ok t1 =>
      rw [hi] at h
      refine insertAll_entries g hash P vs t1 t' h ?_ (fun x hx => h2 x (List.mem_cons_of_mem _ hx))
      unfold Table.insert at hi
      split at hi
      · cases hi
      · split at hi
        · cases hi
        · split at hi
          · cases hi
          · split at hi
            · cases hi
            · split at hi
              · cases hi
                intro x hx
                rcases List.mem_or_eq_of_mem_set hx with hx | rfl
                · exact h1 x hx
                · exact h2 x (by simp)
              · cases hi

/-- **C47**, what holds: maps and sets of types for which zeros are valid can be bound. -/
theorem C47_bind_partial {V : Type} (p : Platform) (hash : V → BitVec 64) (valid : V → Bool) (zero : V) (vs : List V)
    (hl : vs.length * 8 < 2 ^ 64) (hv : vs.all valid = true) (hz : valid zero = true) :
    ∃ m, store p.group hash zero vs = .ok m ∧ m.bind valid = .ok m := by
  obtain ⟨b, t, c, h1, -, -, -, h5, -⟩ := store_ok p.lawful hash zero vs hl
  refine ⟨t, h1, ?_⟩
  unfold store at h1
  rw [h5] at h1
  dsimp only at h1
  split at h1
  · cases h1
  · rename_i t' ht'
    cases h1
    unfold Raw.bind
    rw [if_pos]
    rw [List.all_eq_true]
    refine insertAll_entries _ hash (fun x => valid x = true) vs _ t' ht' ?_ (List.all_eq_true.1 hv)
    intro x hx
    simp only [newTable, List.mem_replicate] at hx
    rw [hx.2]
    exact hz

/-- A sample with collisions: all keys have the same hash. -/
example : (match storeMap Platform.sse2.group (fun _ => 0xFFFF000000000003#64) (0, 0)
      ((List.range 20).map (fun k => (k, k * k))) with
    | .ok m => (getMap Platform.sse2.group (fun _ => 0xFFFF000000000003#64) m 19,
        getMap Platform.sse2.group (fun _ => 0xFFFF000000000003#64) m 20)
    | .error e => (.error e, .error e)) = (.ok (some 361), .ok none) := by decide +kernel

end Musli.Zero.Swiss
