import Verif.Props.ZeroPhf
import Verif.Proofs.Zero.PhfFixed
/-!
# C48: exactly which entries are found, and that two corrections suffice
-/
namespace Musli.Zero.Phf
open Musli

section
variable {K V : Type} [DecidableEq K] (hash : BitVec 64 → K → Hashes)

theorem lookup_of_mem {es : List (K × V)} (hu : (es.map Prod.fst).Nodup) {k : K} {v : V} (hv : (k, v) ∈ es) :
    es.lookup k = some v := by
  induction es with
  | nil => cases hv
  | cons e es ih =>
    rw [List.map_cons, List.nodup_cons] at hu
    rcases List.mem_cons.1 hv with rfl | hv
    · simp [List.lookup]
    · have hne : k ≠ e.1 := by
        rintro rfl
        exact hu.1 (List.mem_map.2 ⟨_, hv, rfl⟩)
      rw [List.lookup_cons]
      have : (k == e.1) = false := by simpa using hne
      rw [this]
      exact ih hu.2 hv

theorem lookup_of_not_mem {es : List (K × V)} {k : K} (h : ¬ ∃ v, (k, v) ∈ es) : es.lookup k = none := by
  induction es with
  | nil => rfl
  | cons e es ih =>
    rw [List.lookup_cons]
    have : (k == e.1) = false := by
      simp only [beq_eq_false_iff_ne]
      rintro rfl
      exact h ⟨e.2, by simp⟩
    rw [this]
    exact ih (fun ⟨v, hv⟩ => h ⟨v, List.mem_cons_of_mem _ hv⟩)

/-- **C48** for the two corrections of `Model/Zero/PhfFixed.lean`: whatever the entries, the hash function and the random
numbers are, if a map results then `get` of any key is the value which was stored with it, and `None` if there is none. So
nothing else is wrong with the tables of the code. -/
theorem C48_corrected (rng : Nat → BitVec 64) (fuel : Nat) (es : List (K × V)) (m : Raw (K × V))
    (hu : (es.map Prod.fst).Nodup) (h : storeCorrected hash Prod.fst rng fuel es = .ok m) (k : K) :
    getMap hash m k = .ok (es.lookup k) := by
  rcases storeCorrected_spec hash Prod.fst rng fuel es with h' | ⟨m', h1, h2, h3, h4, h5⟩
  · rw [h] at h'; cases h'
  · rw [h] at h1
    cases h1
    unfold getMap Raw.find
    by_cases h0 : m.displacements.length = 0
    · rw [if_pos h0]
      have : es = [] := by
        rw [h2] at h0
        unfold displacementsLen at h0
        exact List.length_eq_zero_iff.1 (by omega)
      rw [this]
      rfl
    · rw [if_neg h0]
      dsimp only
      have hlt := Nat.mod_lt (hash m.key k).g.toNat (Nat.pos_of_ne_zero h0)
      have hne : m.entries.length ≠ 0 := by
        intro h
        rw [h3] at h
        rw [h2, h] at h0
        exact h0 rfl
      by_cases hk : ∃ v, (k, v) ∈ es
      · obtain ⟨v, hv⟩ := hk
        obtain ⟨i, hi⟩ := List.mem_iff_getElem?.1 hv
        obtain ⟨d, q1, q2⟩ := h5 i _ hi
        rw [h2, q1]
        dsimp only at q2 ⊢
        rw [if_neg hne, h3, q2]
        dsimp only
        rw [if_pos rfl, lookup_of_mem hu hv]
      · rw [lookup_of_not_mem hk, List.getElem?_eq_getElem hlt]
        dsimp only
        rw [if_neg hne]
        cases he : m.entries[slot m.entries.length
            m.displacements[(hash m.key k).g.toNat % m.displacements.length] (hash m.key k)]? with
        | none => rfl
        | some e =>
          dsimp only
          rw [if_neg]
          rintro rfl
          exact hk ⟨e.2, h4 e (List.mem_of_getElem? he)⟩

/-- **C48** for sets with the two corrections. -/
theorem C48_set_corrected (rng : Nat → BitVec 64) (fuel : Nat) (xs : List K) (m : Raw K)
    (h : storeCorrected hash id rng fuel xs = .ok m) (k : K) : containsSet hash m k = .ok (decide (k ∈ xs)) := by
  rcases storeCorrected_spec hash id rng fuel xs with h' | ⟨m', h1, h2, h3, h4, h5⟩
  · rw [h] at h'; cases h'
  · rw [h] at h1
    cases h1
    unfold containsSet Raw.find
    by_cases h0 : m.displacements.length = 0
    · rw [if_pos h0]
      have : xs = [] := by
        rw [h2] at h0
        unfold displacementsLen at h0
        exact List.length_eq_zero_iff.1 (by omega)
      rw [this]
      simp
    · rw [if_neg h0]
      dsimp only
      have hlt := Nat.mod_lt (hash m.key k).g.toNat (Nat.pos_of_ne_zero h0)
      have hne : m.entries.length ≠ 0 := by
        intro h
        rw [h3] at h
        rw [h2, h] at h0
        exact h0 rfl
      by_cases hk : k ∈ xs
      · obtain ⟨i, hi⟩ := List.mem_iff_getElem?.1 hk
        obtain ⟨d, q1, q2⟩ := h5 i _ hi
        rw [id_eq] at q1 q2
        rw [h2, q1]
        dsimp only
        rw [if_neg hne, h3, q2]
        simp [hk]
      · rw [List.getElem?_eq_getElem hlt]
        dsimp only
        rw [if_neg hne]
        cases he : m.entries[slot m.entries.length
            m.displacements[(hash m.key k).g.toNat % m.displacements.length] (hash m.key k)]? with
        | none => simp [hk]
        | some e =>
          dsimp only
          rw [if_neg]
          · simp [hk]
          · rw [id_eq]
            rintro rfl
            exact hk (h4 e (List.mem_of_getElem? he))

/-- **C48** for the code as it is and up to five entries, of which there is one pair of displacements: exactly which entries are
found. The `i`th entry has a slot `j`; it is found if and only if the slot of the `j`th entry is `i`. -/
theorem C48_exact_partial (rng : Nat → BitVec 64) (fuel : Nat) (es : List (K × V)) (m : Raw (K × V))
    (hu : (es.map Prod.fst).Nodup) (hn : es.length ≤ 5) (h : storeMap hash rng fuel es = .ok m)
    (i j : Nat) (k k' : K) (v v' : V) (hi : es[i]? = some (k, v)) (d : BitVec 32 × BitVec 32) (hd : d ∈ m.displacements)
    (hj : slot es.length d (hash m.key k) = j) (hk : es[j]? = some (k', v')) :
    getMap hash m k = .ok (some v) ↔ slot es.length d (hash m.key k') = i := by
  rcases store_spec hash Prod.fst rng fuel es with h' | ⟨m', map, h1, h2, h3, h4, h5, h6⟩
  · unfold storeMap at h; rw [h] at h'; cases h'
  · unfold storeMap at h
    rw [h] at h1
    cases h1
    have hil := (List.getElem?_eq_some_iff.1 hi).1
    have hd1 : displacementsLen es.length = 1 := by unfold displacementsLen; omega
    obtain ⟨d0, hd0⟩ := List.length_eq_one_iff.1 (show m.displacements.length = 1 by rw [h5, hd1])
    rw [hd0, List.mem_singleton] at hd
    subst hd
    obtain ⟨-, -, g3⟩ := tryGenerate_spec h2
    have hlen : ((es.map Prod.fst).map (hash m.key)).length = es.length := by simp
    -- every entry is in the only bucket
    have hslot : ∀ (s : Nat) (q : K) (w : V), es[s]? = some (q, w) →
        map[slot es.length d (hash m.key q)]? = some (some s) := by
      intro s q w hs
      have hsl := (List.getElem?_eq_some_iff.1 hs).1
      have hget : ((es.map Prod.fst).map (hash m.key))[s]? = some (hash m.key q) := by
        rw [List.getElem?_map, List.getElem?_map, hs]; rfl
      have hperm := List.mergeSort_perm (bucketsOf ((es.map Prod.fst).map (hash m.key)))
        (fun a b => decide (a.length ≤ b.length))
      have hbl : (bucketsOf ((es.map Prod.fst).map (hash m.key))).length = 1 := by rw [buckets_length, hlen, hd1]
      obtain ⟨b, hb⟩ := List.length_eq_one_iff.1 hbl
      rw [hb] at hperm g3
      rw [List.perm_singleton.1 hperm] at g3
      have hib : s ∈ b := by
        have := (mem_buckets (hashes := (es.map Prod.fst).map (hash m.key)) (b := 0) (i := s) (by rw [hlen, hd1]; omega)).2
          ⟨by rw [hlen]; exact hsl, by rw [hlen, hd1]; omega⟩
        rw [hb] at this
        exact this
      have := g3 0 b d rfl (by rw [hd0]; rfl) s hib
      unfold slotOf at this
      rw [hget, hlen] at this
      exact this
    have hjl := (List.getElem?_eq_some_iff.1 hk).1
    have e1 := hslot i k v hi
    rw [hj] at e1
    have e2 := hslot j k' v' hk
    -- what is at the slot
    obtain ⟨x, hx⟩ : ∃ x, m.entries[j]? = some x := ⟨_, List.getElem?_eq_getElem (by rw [h3]; exact hjl)⟩
    obtain ⟨s0, q1, q2⟩ := h6 j x hx
    have hs0 : s0 = slot es.length d (hash m.key k') := h4.inj _ _ _ q2 e2
    have hget : getMap hash m k = if x.1 = k then .ok (some x.2) else .ok none := by
      unfold getMap Raw.find
      rw [hd0]
      have hne : es.length ≠ 0 := by omega
      simp only [List.length_singleton, Nat.one_ne_zero, if_false, Nat.mod_one, List.getElem?_cons_zero, hne, h3, hj, hx]
      by_cases hxk : x.1 = k
      · rw [if_pos hxk, if_pos hxk]
      · rw [if_neg hxk, if_neg hxk]
    rw [hget, ← hs0]
    constructor
    · intro hg
      by_cases hxk : x.1 = k
      · have hs1 : s0 < es.length := (List.getElem?_eq_some_iff.1 q1).1
        have a1 : (es.map Prod.fst)[s0]? = some k := by rw [List.getElem?_map, q1]; simp [hxk]
        have a2 : (es.map Prod.fst)[i]? = some k := by rw [List.getElem?_map, hi]; rfl
        refine (List.getElem?_inj (by simpa using hs1) hu).1 ?_
        rw [a1, a2]
      · rw [if_neg hxk] at hg; cases hg
    · intro hs
      rw [hs, hi] at q1
      cases q1
      rw [if_pos rfl]

end

/-- A hash function with two buckets of which the second is placed first. -/
def swapped : BitVec 64 → Nat → Hashes := fun _ k =>
  if k < 2 then ⟨1, 0, BitVec.ofNat 32 k⟩ else if k = 2 then ⟨0, 0, 1⟩ else ⟨0, 0, BitVec.ofNat 32 (k - 1)⟩

/-- Six entries. -/
def six : List (Nat × Nat) := [(0, 10), (1, 11), (2, 12), (3, 13), (4, 14), (5, 15)]

theorem mergeSort_pair {α : Type} (le : α → α → Bool) (a b : α) :
    [a, b].mergeSort le = if le a b = true then [a, b] else [b, a] := by
  cases h : le a b <;> simp [List.mergeSort, List.MergeSort.Internal.splitInTwo, List.merge, h]

theorem swapped_generates : tryGenerate ((six.map Prod.fst).map (swapped 0)) =
    some ([(0, 0), (0, 1)], (List.range 6).map some) := by
  have e : bucketsOf ((six.map Prod.fst).map (swapped 0)) = [[2, 3, 4, 5], [0, 1]] := by decide +kernel
  unfold tryGenerate
  rw [e, mergeSort_pair, if_neg (by decide)]
  decide +kernel

theorem swapped_generatesCorrected : tryGenerateCorrected ((six.map Prod.fst).map (swapped 0)) =
    some ([(0, 1), (0, 0)], (List.range 6).map some) := by
  have e : sortedBuckets ((six.map Prod.fst).map (swapped 0)) = [([0, 1], 1), ([2, 3, 4, 5], 0)] := by
    have e : (bucketsOf ((six.map Prod.fst).map (swapped 0))).zipIdx = [([2, 3, 4, 5], 0), ([0, 1], 1)] := by decide +kernel
    unfold sortedBuckets
    rw [e, mergeSort_pair, if_neg (by decide)]
  unfold tryGenerateCorrected
  rw [e]
  decide +kernel

/-- **C48** is also violated where every entry is in its place already, so that the permutation does not matter
(`C48_full_statement_false`): `try_generate_hash` sorts the buckets and gives them the displacements in this order
(`phf/generator.rs:94, 114`), but lookups use the number of the bucket. None of the six entries is found. -/
theorem C48_violated_by_order :
    ∃ m, storeMap swapped (fun _ => 0) 1 six = .ok m ∧ m.entries = six ∧
      ∀ e ∈ six, getMap swapped m e.1 = .ok none := by
  refine ⟨⟨0, six, [(0, 0), (0, 1)]⟩, ?_, rfl, by decide +kernel⟩
  unfold storeMap store generate
  rw [show (fun _ : Nat => (0 : BitVec 64)) 0 = 0 from rfl, swapped_generates]
  rfl

/-! ### The hypotheses are met -/

/-- The same entries with the corrections. -/
example : ∃ m, storeCorrected swapped Prod.fst (fun _ => 0) 1 six = .ok m ∧ (six.map Prod.fst).Nodup ∧
    (∀ e ∈ six, getMap swapped m e.1 = .ok (some e.2)) ∧ getMap swapped m 6 = .ok none := by
  refine ⟨⟨0, six, [(0, 1), (0, 0)]⟩, ?_, by decide, by decide +kernel, by decide +kernel⟩
  unfold storeCorrected generateCorrected
  rw [show (fun _ : Nat => (0 : BitVec 64)) 0 = 0 from rfl, swapped_generatesCorrected]
  rfl

/-- And those of `C48_full_statement_false`. -/
example : (match storeCorrected rot Prod.fst (fun _ => 0) 1 [(0, 10), (1, 11), (2, 12)] with
    | .ok m => decide (getMap rot m 0 = .ok (some 10)) && decide (getMap rot m 1 = .ok (some 11)) &&
      decide (getMap rot m 2 = .ok (some 12)) && decide (getMap rot m 3 = .ok none)
    | .error _ => false) = true := by decide +kernel

/-- A set. -/
example : (match storeCorrected rot id (fun _ => 0) 1 [0, 1, 2] with
    | .ok m => decide (containsSet rot m 0 = .ok true) && decide (containsSet rot m 3 = .ok false)
    | .error _ => false) = true := by decide +kernel

/-- Of these three, of which two are exchanged, all are found: the slots of the entries 0, 1 and 2 are 1, 0 and 2. -/
def exchanged : BitVec 64 → Nat → Hashes := fun _ k =>
  ⟨0, 0, if k = 0 then 1 else if k = 1 then 0 else BitVec.ofNat 32 k⟩

example : (match storeMap exchanged (fun _ => 0) 1 [(0, 10), (1, 11), (2, 12)] with
    | .ok m => decide (m.displacements = [(0, 0)]) && decide (slot 3 (0, 0) (exchanged m.key 0) = 1) &&
      decide (slot 3 (0, 0) (exchanged m.key 1) = 0) && decide (getMap exchanged m 0 = .ok (some 10))
    | .error _ => false) = true := by decide +kernel

end Musli.Zero.Phf
