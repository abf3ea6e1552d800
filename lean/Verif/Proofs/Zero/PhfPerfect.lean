import Verif.Proofs.Zero.Phf
/-! Perfect hash functions: the search ends if the hash function has no collisions. -/
namespace Musli.Zero.Phf
open Musli

/-- The place of a key without displacements. -/
def ownSlot (hashes : List Hashes) (n i : Nat) : Nat := ((hashes[i]?).getD ⟨0, 0, 0⟩).f2.toNat % n

theorem slot_zero (n : Nat) (h : Hashes) : slot n (BitVec.ofNat 32 0, BitVec.ofNat 32 0) h = h.f2.toNat % n := by
  have : displace h.f1 h.f2 (BitVec.ofNat 32 0) (BitVec.ofNat 32 0) = h.f2 := by simp [displace]
  rw [slot, this]

theorem place_zero {hashes : List Hashes} {n : Nat} {map : List (Option Nat)}
    (hd : ∀ i j, i < hashes.length → j < hashes.length → ownSlot hashes n i = ownSlot hashes n j → i = j) :
    ∀ (bucket done : List Nat), (∀ i ∈ bucket, i < hashes.length) → (∀ i ∈ done, i < hashes.length) →
      (done ++ bucket).Nodup → (∀ i ∈ bucket, map[ownSlot hashes n i]? = some none) →
      place hashes n map (BitVec.ofNat 32 0, BitVec.ofNat 32 0) bucket (done.map fun i => (ownSlot hashes n i, i)) =
        some ((done ++ bucket).map fun i => (ownSlot hashes n i, i))
  | [], done, _, _, _, _ => by simp [place]
  | key :: rest, done, hb, hdn, hn, hm => by
    have hk := hb key (by simp)
    have hs : slot n (BitVec.ofNat 32 0, BitVec.ofNat 32 0) hashes[key] = ownSlot hashes n key := by
      rw [slot_zero, ownSlot, List.getElem?_eq_getElem hk]; rfl
    have hmem : ownSlot hashes n key ∉ (done.map fun i => (ownSlot hashes n i, i)).map Prod.fst := by
      intro h
      rw [List.map_map] at h
      obtain ⟨i, hi, he⟩ := List.mem_map.1 h
      have := hd i key (hdn i hi) hk he
      subst this
      exact (List.nodup_append.1 hn).2.2 i hi i (by simp) rfl
    rw [place, List.getElem?_eq_getElem hk]
    dsimp only
    rw [hs, if_neg (by
      rw [not_or]
      exact ⟨fun h => h (hm key (by simp)), hmem⟩)]
    have := place_zero hd rest (done ++ [key]) (fun i hi => hb i (by simp [hi])) (fun i hi => by
      rcases List.mem_append.1 hi with h | h
      · exact hdn i h
      · rw [List.mem_singleton] at h; rw [h]; exact hk) (by simpa using hn) (fun i hi => hm i (by simp [hi]))
    simpa using this

theorem searchAll_perfect {hashes : List Hashes} {n : Nat} (hn : 0 < n)
    (hd : ∀ i j, i < hashes.length → j < hashes.length → ownSlot hashes n i = ownSlot hashes n j → i = j) :
    ∀ (bs : List (List Nat)) (map : List (Option Nat)), (∀ i ∈ bs.flatten, i < hashes.length) → bs.flatten.Nodup →
      (∀ i ∈ bs.flatten, map[ownSlot hashes n i]? = some none) → (searchAll hashes n bs map).isSome = true
  | [], map, _, _, _ => rfl
  | bucket :: rest, map, hlt, hnd, hm => by
    rw [List.flatten_cons] at hlt hnd hm
    have hp := place_zero (map := map) hd bucket [] (fun i hi => hlt i (by simp [hi])) (by simp)
      (by simpa using (List.nodup_append.1 hnd).1) (fun i hi => hm i (by simp [hi]))
    rw [List.map_nil, List.nil_append] at hp
    obtain ⟨m, rfl⟩ : ∃ m, n = m + 1 := ⟨n - 1, by omega⟩
    have hsb : searchBucket hashes (m + 1) map bucket =
        some ((BitVec.ofNat 32 0, BitVec.ofNat 32 0), bucket.map fun i => (ownSlot hashes (m + 1) i, i)) := by
      rw [searchBucket, List.range_succ_eq_map, List.findSome?_cons, List.findSome?_cons, hp]
      rfl
    rw [searchAll, hsb]
    dsimp only
    have hrest := searchAll_perfect hn hd rest (addAll map (bucket.map fun i => (ownSlot hashes (m + 1) i, i)))
      (fun i hi => hlt i (by simp only [List.mem_append]; exact .inr hi)) (List.nodup_append.1 hnd).2.1 (fun i hi => by
        have hfst : (bucket.map fun i => (ownSlot hashes (m + 1) i, i)).map Prod.fst = bucket.map (ownSlot hashes (m + 1)) := by
          rw [List.map_map]; rfl
        have hnodup : ((bucket.map fun i => (ownSlot hashes (m + 1) i, i)).map Prod.fst).Nodup := by
          rw [hfst]
          refine List.pairwise_map.2 (List.Pairwise.imp_of_mem (fun {a b} ha hb hne h => hne (hd a b ?_ ?_ h)) (List.nodup_append.1 hnd).1)
          · exact hlt a (by simp only [List.mem_append]; exact .inl ha)
          · exact hlt b (by simp only [List.mem_append]; exact .inl hb)
        rw [(addAll_get _ map hnodup).2 _ (by
          rw [hfst]
          intro h
          obtain ⟨j, hj, he⟩ := List.mem_map.1 h
          have := hd j i (hlt j (by simp only [List.mem_append]; exact .inl hj)) (hlt i (by simp only [List.mem_append]; exact .inr hi)) he
          subst this
          exact (List.nodup_append.1 hnd).2.2 j hj j hi rfl)]
        exact hm i (by simp only [List.mem_append]; exact .inr hi))
    obtain ⟨r, hr⟩ := Option.isSome_iff_exists.1 hrest
    obtain ⟨ds, map'⟩ := r
    rw [hr]
    rfl

/-- Without collisions there are displacements, for example none. -/
theorem tryGenerate_perfect {hashes : List Hashes} (hd : (hashes.map fun h => h.f2.toNat % hashes.length).Nodup) :
    (tryGenerate hashes).isSome = true := by
  have hperm := List.mergeSort_perm (bucketsOf hashes) (fun a b => decide (a.length ≤ b.length))
  have hfl := hperm.flatten
  rcases Nat.eq_zero_or_pos hashes.length with h0 | h0
  · have : hashes = [] := List.length_eq_zero_iff.1 h0
    subst this
    decide +kernel
  rw [tryGenerate]
  refine searchAll_perfect h0 ?_ _ _ ?_ ?_ ?_
  · intro i j hi hj he
    have hp := List.pairwise_iff_getElem.1 hd
    simp only [ownSlot, List.getElem?_eq_getElem hi, List.getElem?_eq_getElem hj, Option.getD_some] at he
    rcases Nat.lt_trichotomy i j with h | h | h
    · exact absurd (by rw [List.getElem_map, List.getElem_map]; exact he) (hp i j (by simpa using hi) (by simpa using hj) h)
    · exact h
    · exact absurd (by rw [List.getElem_map, List.getElem_map]; exact he.symm) (hp j i (by simpa using hj) (by simpa using hi) h)
  · intro i hi
    exact mem_buckets_flatten.1 (hfl.mem_iff.1 hi)
  · exact hfl.nodup_iff.2 (buckets_nodup hashes)
  · intro i hi
    have : ownSlot hashes hashes.length i < hashes.length := Nat.mod_lt _ h0
    rw [List.getElem?_replicate, if_pos this]

theorem generate_of {K : Type} (hash : BitVec 64 → K → Hashes) (keys : List K) : ∀ (j : Nat) (rng : Nat → BitVec 64),
    (tryGenerate (keys.map (hash (rng j)))).isSome = true → ∃ r, generate hash keys (j + 1) rng = .ok r
  | 0, rng, h => by
    obtain ⟨r, hr⟩ := Option.isSome_iff_exists.1 h
    unfold generate
    rw [hr]
    exact ⟨_, rfl⟩
  | j + 1, rng, h => by
    unfold generate
    cases tryGenerate (keys.map (hash (rng 0))) with
    | some r => exact ⟨_, rfl⟩
    | none => exact generate_of hash keys j (fun i => rng (i + 1)) h

end Musli.Zero.Phf
