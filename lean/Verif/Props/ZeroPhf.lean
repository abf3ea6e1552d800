import Verif.Proofs.Zero.PhfPerfect
/-!
# C48, C49, C50: perfect hash functions in zero-copy buffers
-/
namespace Musli.Zero.Phf
open Musli

set_option linter.unusedSectionVars false

section
variable {K V : Type} [DecidableEq K] (hash : BitVec 64 → K → Hashes)

/-- What is known about a table which has been stored. -/
theorem store_spec {W : Type} (access : W → K) (rng : Nat → BitVec 64) (fuel : Nat) (es : List W) :
    store hash access rng fuel es = .error .fuel ∨
    ∃ m map, store hash access rng fuel es = .ok m ∧
      tryGenerate ((es.map access).map (hash m.key)) = some (m.displacements, map) ∧ m.entries.length = es.length ∧
      PermMap es.length map ∧ m.displacements.length = displacementsLen es.length ∧
      ∀ (k : Nat) x, m.entries[k]? = some x → ∃ s0 : Nat, es[s0]? = some x ∧ map[s0]? = some (some k) := by
  unfold store
  rcases generate_spec hash (es.map access) fuel rng with h | ⟨i, ds, map, -, h1, h2⟩
  · rw [h]; exact .inl rfl
  · rw [h1]
    obtain ⟨g1, g2, -⟩ := tryGenerate_spec h2
    rw [List.length_map, List.length_map] at g1 g2
    obtain ⟨e', k1, k2, k3⟩ := swapAll_spec (List.range es.length) es map g1 rfl (fun f hf => List.mem_range.1 hf)
      (fun j hj hn => absurd (List.mem_range.2 hj) hn)
    dsimp only
    rw [k1]
    exact .inr ⟨⟨rng i, e', ds⟩, map, rfl, h2, k2, g1, g2, k3⟩

/-- Lookup does not fail in a stored table. -/
theorem find_sound {W : Type} (access : W → K) {rng : Nat → BitVec 64} {fuel : Nat} {es : List W} {m : Raw W}
    (h : store hash access rng fuel es = .ok m) (k : K) :
    m.find hash access k = .ok none ∨ ∃ e ∈ es, m.find hash access k = .ok (some e) ∧ access e = k := by
  rcases store_spec hash access rng fuel es with h1 | ⟨m', map, h1, h2, h3, h4, h5, h6⟩
  · rw [h] at h1; cases h1
  · rw [h] at h1
    cases h1
    unfold Raw.find
    by_cases h0 : m.displacements.length = 0
    · rw [if_pos h0]; exact .inl rfl
    · rw [if_neg h0]
      dsimp only
      have hlt := Nat.mod_lt (hash m.key k).g.toNat (Nat.pos_of_ne_zero h0)
      rw [List.getElem?_eq_getElem hlt]
      dsimp only
      have hne : m.entries.length ≠ 0 := by
        intro h
        rw [h3] at h
        rw [h5, h] at h0
        exact h0 rfl
      rw [if_neg hne]
      cases he : m.entries[slot m.entries.length
        m.displacements[(hash m.key k).g.toNat % m.displacements.length] (hash m.key k)]? with
      | none => exact .inl rfl
      | some e =>
        dsimp only
        by_cases hk : access e = k
        · rw [if_pos hk]
          obtain ⟨s0, hs, -⟩ := h6 _ _ he
          exact .inr ⟨e, List.mem_iff_getElem?.2 ⟨s0, hs⟩, rfl, hk⟩
        · rw [if_neg hk]; exact .inl rfl

/-- With one bucket and a permutation which is its own inverse every entry is found. -/
theorem find_complete {W : Type} (access : W → K) {rng : Nat → BitVec 64} {fuel : Nat} {es : List W} {m : Raw W}
    (h : store hash access rng fuel es = .ok m) (hn : es.length ≤ 2) (e : W) (he : e ∈ es) :
    m.find hash access (access e) = .ok (some e) := by
  rcases store_spec hash access rng fuel es with h1 | ⟨m', map, h1, h2, h3, h4, h5, h6⟩
  · rw [h] at h1; cases h1
  · rw [h] at h1
    cases h1
    obtain ⟨i, hi⟩ := List.mem_iff_getElem?.1 he
    have hil := (List.getElem?_eq_some_iff.1 hi).1
    have hd1 : displacementsLen es.length = 1 := by unfold displacementsLen; omega
    obtain ⟨-, -, g3⟩ := tryGenerate_spec h2
    have hlen : ((es.map access).map (hash m.key)).length = es.length := by simp
    have hget : ((es.map access).map (hash m.key))[i]? = some (hash m.key (access e)) := by
      rw [List.getElem?_map, List.getElem?_map, hi]; rfl
    generalize hhs : (es.map access).map (hash m.key) = hs at *
    have hperm := List.mergeSort_perm (bucketsOf hs) (fun a b => decide (a.length ≤ b.length))
    have hbl : (bucketsOf hs).length = 1 := by rw [buckets_length, hlen, hd1]
    obtain ⟨b, hb⟩ : ∃ b, bucketsOf hs = [b] := List.length_eq_one_iff.1 hbl
    rw [hb] at hperm g3
    have hb' := List.perm_singleton.1 hperm
    rw [hb'] at g3
    have hib : i ∈ b := by
      have := (mem_buckets (hashes := hs) (b := 0) (i := i) (by rw [hlen, hd1]; omega)).2
        ⟨by rw [hlen]; exact hil, by rw [hlen, hd1]; omega⟩
      rw [hb] at this
      exact this
    obtain ⟨d, hd⟩ := List.length_eq_one_iff.1 (show m.displacements.length = 1 by rw [h5, hd1])
    have hslot := g3 0 b d rfl (by rw [hd]; rfl) i hib
    have hsl : slotOf hs hs.length d i = slot m.entries.length d (hash m.key (access e)) := by
      unfold slotOf
      rw [hget, hlen, h3]
      rfl
    rw [hsl] at hslot
    generalize hs : slot m.entries.length d (hash m.key (access e)) = s at hslot
    have hsl : s < es.length := by rw [← h4.length]; exact (List.getElem?_eq_some_iff.1 hslot).1
    -- the permutation is its own inverse
    have hinv : map[i]? = some (some s) := by
      obtain ⟨t, ht, hmt⟩ := h4.total i hil
      by_cases hsi : s = i
      · rw [← hsi, hslot, hsi]
      · have : t ≠ i := by
          rintro rfl
          exact hsi (h4.inj _ _ _ hslot hmt)
        have : t = s := by omega
        rw [hmt, this]
    have hes : m.entries[s]? = some e := by
      obtain ⟨x, hx⟩ : ∃ x, m.entries[s]? = some x := ⟨_, List.getElem?_eq_getElem (by rw [h3]; exact hsl)⟩
      obtain ⟨s0, q1, q2⟩ := h6 s x hx
      have := h4.inj _ _ _ q2 hinv
      rw [this, hi] at q1
      rw [hx, ← q1]
    unfold Raw.find
    rw [hd]
    have : m.entries.length ≠ 0 := by omega
    simp [Nat.mod_one, this, hs, hes]

/-- **C48**, the full statement: `get` of a stored map finds exactly the stored entries. -/
def C48Statement : Prop := ∀ (K V : Type) [DecidableEq K] (hash : BitVec 64 → K → Hashes) (rng : Nat → BitVec 64)
  (fuel : Nat) (es : List (K × V)) (m : Raw (K × V)), (es.map Prod.fst).Nodup → storeMap hash rng fuel es = .ok m →
  ∀ k, getMap hash m k = .ok (es.lookup k)

/-- **C48** for maps: building never panics (see C49 for the case that it does not end), and if a table
results, then `get` of any key does not fail, and what it returns is the value of a stored entry with
this key. In particular nothing is returned for a key which is not stored. -/
theorem C48_sound (rng : Nat → BitVec 64) (fuel : Nat) (es : List (K × V)) :
    storeMap hash rng fuel es = .error .fuel ∨
    ∃ m, storeMap hash rng fuel es = .ok m ∧ ∀ k,
      getMap hash m k = .ok none ∨ ∃ v, getMap hash m k = .ok (some v) ∧ (k, v) ∈ es := by
  rcases store_spec hash Prod.fst rng fuel es with h | ⟨m, -, h, -⟩
  · exact .inl h
  · refine .inr ⟨m, h, fun k => ?_⟩
    unfold getMap
    rcases find_sound hash Prod.fst h k with h1 | ⟨⟨k', v⟩, h1, h2, h3⟩
    · rw [h1]; exact .inl rfl
    · rw [h2]
      cases h3
      exact .inr ⟨v, rfl, h1⟩

/-- **C48** for sets: `contains` does not fail and is true only of stored values. -/
theorem C48_set_sound (rng : Nat → BitVec 64) (fuel : Nat) (xs : List K) :
    storeSet hash rng fuel xs = .error .fuel ∨
    ∃ m, storeSet hash rng fuel xs = .ok m ∧ ∀ k,
      ∃ r, containsSet hash m k = .ok r ∧ (r = true → k ∈ xs) := by
  rcases store_spec hash id rng fuel xs with h | ⟨m, -, h, -⟩
  · exact .inl h
  · refine .inr ⟨m, h, fun k => ?_⟩
    unfold containsSet
    rcases find_sound hash id h k with h1 | ⟨k', h1, h2, h3⟩
    · rw [h1]; exact ⟨false, rfl, fun h => by cases h⟩
    · rw [h2]
      cases h3
      exact ⟨true, rfl, fun _ => h1⟩

/-- **C48** holds for maps with up to two entries. -/
theorem C48_small_partial (rng : Nat → BitVec 64) (fuel : Nat) (es : List (K × V)) (m : Raw (K × V))
    (hu : (es.map Prod.fst).Nodup) (hn : es.length ≤ 2) (h : storeMap hash rng fuel es = .ok m) (k : K) :
    getMap hash m k = .ok (es.lookup k) := by
  by_cases hk : ∃ v, (k, v) ∈ es
  · obtain ⟨v, hv⟩ := hk
    have hl : es.lookup k = some v := by
      clear h hn
      induction es with
      | nil => cases hv
      | cons e es ih =>
        rw [List.map_cons, List.nodup_cons] at hu
        rcases List.mem_cons.1 hv with rfl | hv
        · simp [List.lookup]
        · have hne : k ≠ e.1 := by
            rintro rfl
            exact hu.1 (List.mem_map.2 ⟨_, hv, rfl⟩)
          rw [List.lookup_cons]
          have : (k == e.1) = false := by simpa using hne
          rw [this]
          exact ih hu.2 hv
    unfold getMap
    have := find_complete hash Prod.fst h hn (k, v) hv
    rw [show (k, v).fst = k from rfl] at this
    rw [this, hl]
  · have hl : es.lookup k = none := by
      clear h hn hu
      induction es with
      | nil => rfl
      | cons e es ih =>
        have hne : k ≠ e.1 := by
          rintro rfl
          exact hk ⟨e.2, by simp⟩
        rw [List.lookup_cons]
        have : (k == e.1) = false := by simpa using hne
        rw [this]
        exact ih (fun ⟨v, hv⟩ => hk ⟨v, List.mem_cons_of_mem _ hv⟩)
    rw [hl]
    unfold getMap
    rcases find_sound hash Prod.fst h k with h1 | ⟨⟨k', v⟩, h1, h2, h3⟩
    · rw [h1]
    · cases h3
      exact absurd ⟨v, h1⟩ hk

/-- **C48** for sets with up to two values. -/
theorem C48_set_small_partial (rng : Nat → BitVec 64) (fuel : Nat) (xs : List K) (m : Raw K) (hn : xs.length ≤ 2)
    (h : storeSet hash rng fuel xs = .ok m) (k : K) : containsSet hash m k = .ok (decide (k ∈ xs)) := by
  unfold containsSet
  by_cases hk : k ∈ xs
  · have := find_complete hash id h hn k hk
    rw [id_eq] at this
    rw [this, decide_eq_true hk]
    rfl
  · rw [decide_eq_false hk]
    rcases find_sound hash id h k with h1 | ⟨k', h1, h2, h3⟩
    · rw [h1]; rfl
    · cases h3
      exact absurd h1 hk

/-- **C49**, the full statement: `store_map` ends. -/
def C49Statement : Prop := ∀ (K V : Type) [DecidableEq K] (hash : BitVec 64 → K → Hashes) (rng : Nat → BitVec 64)
  (es : List (K × V)), ∃ fuel m, storeMap hash rng fuel es = .ok m

/-- A key which is given twice keeps `store_map` searching forever, whatever the hash function and the
random numbers. (`swiss::store_map` has no such restriction.) -/
theorem C49_duplicates_never_terminate (rng : Nat → BitVec 64) (es : List (K × V)) (i j : Nat) (k : K) (v w : V)
    (hij : i ≠ j) (hi : es[i]? = some (k, v)) (hj : es[j]? = some (k, w)) (fuel : Nat) :
    storeMap hash rng fuel es = .error .fuel := by
  rcases store_spec hash Prod.fst rng fuel es with h | ⟨m, map, h, h2, -⟩
  · exact h
  · rw [tryGenerate_dup hij] at h2
    · cases h2
    · simpa using (List.getElem?_eq_some_iff.1 hi).1
    · simpa using (List.getElem?_eq_some_iff.1 hj).1
    · simp [List.getElem?_map, hi, hj]

/-- So do two different keys if they have the same hashes under every random number. -/
theorem C49_equal_hashes_never_terminate (rng : Nat → BitVec 64) (es : List (K × V))
    (h : ∀ key, ∃ (i j : Nat) (a b : K × V), i ≠ j ∧ es[i]? = some a ∧ es[j]? = some b ∧ hash key a.1 = hash key b.1)
    (fuel : Nat) : storeMap hash rng fuel es = .error .fuel := by
  rcases store_spec hash Prod.fst rng fuel es with h1 | ⟨m, map, -, h2, -⟩
  · exact h1
  · obtain ⟨i, j, a, b, hij, hi, hj, he⟩ := h m.key
    rw [tryGenerate_dup hij] at h2
    · cases h2
    · simpa using (List.getElem?_eq_some_iff.1 hi).1
    · simpa using (List.getElem?_eq_some_iff.1 hj).1
    · simp [List.getElem?_map, hi, hj, he]

/-- **C49.** The search ends if under one of the random numbers the last of the three hashes of every key has another remainder by the
number of keys; at that number, if not before. -/
theorem C49_perfect_partial (rng : Nat → BitVec 64) (es : List (K × V)) (j : Nat)
    (h : (es.map fun e => (hash (rng j) e.1).f2.toNat % es.length).Nodup) :
    ∃ m, storeMap hash rng (j + 1) es = .ok m := by
  have hp := tryGenerate_perfect (hashes := (es.map Prod.fst).map (hash (rng j))) (by
    simpa [List.map_map, Function.comp_def] using h)
  obtain ⟨r, hr⟩ := generate_of hash (es.map Prod.fst) j rng hp
  rcases generate_spec hash (es.map Prod.fst) (j + 1) rng with h1 | ⟨i, ds, map, -, h1, h2⟩
  · rw [hr] at h1; cases h1
  · obtain ⟨g1, g2, -⟩ := tryGenerate_spec h2
    rw [List.length_map, List.length_map] at g1 g2
    obtain ⟨e', k1, k2, k3⟩ := swapAll_spec (List.range es.length) es map g1 rfl (fun f hf => List.mem_range.1 hf)
      (fun j hj hn => absurd (List.mem_range.2 hj) hn)
    refine ⟨⟨rng i, e', ds⟩, ?_⟩
    unfold storeMap store
    rw [h1]
    dsimp only
    rw [k1]

theorem C49_full_statement_false : ¬ C49Statement := by
  intro h
  obtain ⟨fuel, m, hm⟩ := h Nat Nat (fun _ k => ⟨0, 0, BitVec.ofNat 32 k⟩) (fun _ => 0) [(1, 1), (1, 2)]
  rw [C49_duplicates_never_terminate _ _ _ 0 1 1 1 2 (by decide) rfl rfl] at hm
  cases hm

/-- The search of a table ends with the first random number for which there are displacements; in
particular it ends at once for up to one entry. -/
theorem C49_small_partial (rng : Nat → BitVec 64) (es : List (K × V)) (hn : es.length ≤ 1) :
    ∃ m, storeMap hash rng 1 es = .ok m := by
  rcases store_spec hash Prod.fst rng 1 es with h | ⟨m, -, h, -⟩
  · exfalso
    match es, hn with
    | [], _ => 
      have : tryGenerate [] = some ([], []) := by decide +kernel
      simp [store, generate, this, swapAll] at h
    | [e], _ =>
      have : ∀ x : Hashes, tryGenerate [x] = some ([(0, 0)], [some 0]) := by
        intro x
        have hb : bucketsOf [x] = [[0]] := by
          simp [bucketsOf, displacementsLen, Nat.mod_one, List.range_succ]
        unfold tryGenerate
        rw [hb]
        simp [searchAll, searchBucket, place, addAll, List.range_succ, slot, Nat.mod_one]
      simp [store, generate, this, swapAll, swapLoop] at h
  · exact ⟨m, h⟩

end

/-- Ten keys in two buckets; all of them collide, but under the random number 2. -/
def sampleHash : BitVec 64 → Nat → Hashes := fun r k =>
  ⟨BitVec.ofNat 32 k, 0, if r = 2 then BitVec.ofNat 32 (7 * k + 5) else 0⟩

example : ∃ m, storeMap sampleHash (fun i => BitVec.ofNat 64 i) 3 ([13, 1, 4, 10, 9, 2, 6, 5, 8, 17].map fun k => (k, ())) = .ok m :=
  C49_perfect_partial sampleHash _ _ 2 (by decide +kernel)

/-- A hash function for which the entries have to be rotated. -/
def rot : BitVec 64 → Nat → Hashes := fun _ k => ⟨0, 0, BitVec.ofNat 32 ((k + 1) % 3)⟩

theorem rot_run :
    (match storeMap rot (fun _ => 0) 1 [(0, 10), (1, 11), (2, 12)] with
      | .ok m => decide (m.entries = [(1, 11), (2, 12), (0, 10)]) && decide (getMap rot m 0 = .ok none) &&
        decide (getMap rot m 1 = .ok none) && decide (getMap rot m 2 = .ok none)
      | .error _ => false) = true := by decide +kernel

/-- **C48** is false: `store_raw` applies the inverse of the permutation which is wanted
(`phf/factory.rs:180-192`), so that in this map of three entries, none of them is found. -/
theorem C48_full_statement_false : ¬ C48Statement := by
  intro h
  have hr := rot_run
  cases hm : storeMap rot (fun _ => 0) 1 [(0, 10), (1, 11), (2, 12)] with
  | error e => rw [hm] at hr; cases hr
  | ok m =>
    rw [hm] at hr
    have := h Nat Nat rot (fun _ => 0) 1 [(0, 10), (1, 11), (2, 12)] m (by decide) hm 0
    simp only [Bool.and_eq_true, decide_eq_true_eq] at hr
    rw [hr.1.1.2] at this
    cases this

/-! ### Tables from untrusted buffers -/

/-- **C50** for perfect hash maps, the full statement: lookup in whatever is in a buffer does not panic. -/
def C50PhfStatement : Prop := ∀ (K V : Type) [DecidableEq K] (hash : BitVec 64 → K → Hashes) (m : Raw (K × V)) (k : K),
  getMap hash m k ≠ .error .panic

/-- A map without entries but with displacements divides by zero (`phf/hashing.rs:53`). -/
theorem C50_phf_full_statement_false : ¬ C50PhfStatement := by
  intro h
  exact h Nat Nat rot ⟨0, [], [(0, 0)]⟩ 0 (by decide +kernel)

/-- For any other contents of the buffer, lookup returns without an error, and only entries of the buffer
with this key are returned. -/
theorem C50_phf_partial {K V : Type} [DecidableEq K] (hash : BitVec 64 → K → Hashes) (m : Raw (K × V)) (k : K)
    (hne : m.entries = [] → m.displacements = []) :
    getMap hash m k = .ok none ∨ ∃ v, getMap hash m k = .ok (some v) ∧ (k, v) ∈ m.entries := by
  unfold getMap Raw.find
  by_cases h0 : m.displacements.length = 0
  · rw [if_pos h0]; exact .inl rfl
  · rw [if_neg h0]
    dsimp only
    have hlt := Nat.mod_lt (hash m.key k).g.toNat (Nat.pos_of_ne_zero h0)
    rw [List.getElem?_eq_getElem hlt]
    dsimp only
    have hne : m.entries.length ≠ 0 := fun h =>
      h0 (by rw [hne (List.length_eq_zero_iff.1 h)]; rfl)
    rw [if_neg hne]
    cases he : m.entries[slot m.entries.length
      m.displacements[(hash m.key k).g.toNat % m.displacements.length] (hash m.key k)]? with
    | none => exact .inl rfl
    | some e =>
      obtain ⟨k', v⟩ := e
      dsimp only
      by_cases hk : k' = k
      · rw [if_pos hk]
        subst hk
        exact .inr ⟨v, rfl, List.mem_iff_getElem?.2 ⟨_, he⟩⟩
      · rw [if_neg hk]; exact .inl rfl

/-! ### The hypotheses are met -/

/-- Two entries which are found. -/
example : (match storeMap rot (fun _ => 0) 1 [(0, 10), (2, 12)] with
    | .ok m => decide (getMap rot m 0 = .ok (some 10)) && decide (getMap rot m 2 = .ok (some 12)) &&
      decide (getMap rot m 7 = .ok none)
    | .error _ => false) = true := by decide +kernel

end Musli.Zero.Phf
