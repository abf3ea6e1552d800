import Verif.Model.Zero.PhfFixed
import Verif.Proofs.Zero.Phf
/-!
# The corrected tables
-/
namespace Musli.Zero.Phf
open Musli

theorem filterMap_getElem? {α β : Type} {f : α → Option β} : ∀ {l : List α}, (∀ x ∈ l, (f x).isSome = true) →
    ∀ (i : Nat), (l.filterMap f)[i]? = l[i]?.bind f
  | [], _, i => by simp
  | a :: l, h, i => by
    obtain ⟨b, hb⟩ := Option.isSome_iff_exists.1 (h a (by simp))
    rw [List.filterMap_cons_some hb]
    cases i with
    | zero => simp [hb]
    | succ i => simpa using filterMap_getElem? (fun x hx => h x (List.mem_cons_of_mem _ hx)) i

theorem filterMap_length {α β : Type} {f : α → Option β} : ∀ {l : List α}, (∀ x ∈ l, (f x).isSome = true) →
    (l.filterMap f).length = l.length
  | [], _ => rfl
  | a :: l, h => by
    obtain ⟨b, hb⟩ := Option.isSome_iff_exists.1 (h a (by simp))
    rw [List.filterMap_cons_some hb, List.length_cons, List.length_cons,
      filterMap_length (fun x hx => h x (List.mem_cons_of_mem _ hx))]

theorem lookup_zip : ∀ {ks : List Nat} {vs : List (BitVec 32 × BitVec 32)} {p k : Nat} {v : BitVec 32 × BitVec 32}, ks.Nodup →
    ks[p]? = some k → vs[p]? = some v → (ks.zip vs).lookup k = some v
  | [], _, _, _, _, _, h, _ => by simp at h
  | _ :: _, [], _, _, _, _, _, h => by simp at h
  | k0 :: ks, v0 :: vs, p, k, v, hn, hk, hv => by
    rw [List.nodup_cons] at hn
    rw [List.zip_cons_cons, List.lookup_cons]
    cases p with
    | zero =>
      simp only [List.getElem?_cons_zero, Option.some.injEq] at hk hv
      simp [hk, hv]
    | succ p =>
      rw [List.getElem?_cons_succ] at hk hv
      have hne : k ≠ k0 := by
        rintro rfl
        exact hn.1 (List.mem_of_getElem? hk)
      have : (k == k0) = false := by simpa using hne
      rw [this]
      exact lookup_zip hn.2 hk hv

/-- With the numbers of the buckets every key has its slot under the displacements which are looked up. -/
theorem tryGenerateCorrected_spec {hashes : List Hashes} {ds : List (BitVec 32 × BitVec 32)} {map : List (Option Nat)}
    (h : tryGenerateCorrected hashes = some (ds, map)) :
    PermMap hashes.length map ∧ ds.length = displacementsLen hashes.length ∧
    ∀ (i : Nat) x, hashes[i]? = some x → ∃ d, ds[x.g.toNat % displacementsLen hashes.length]? = some d ∧
      map[slot hashes.length d x]? = some (some i) := by
  unfold tryGenerateCorrected at h
  have hp : (sortedBuckets hashes).Perm (bucketsOf hashes).zipIdx := List.mergeSort_perm _ _
  have hpf : ((sortedBuckets hashes).map Prod.fst).Perm (bucketsOf hashes) := by
    have := hp.map Prod.fst
    rwa [List.zipIdx_map_fst] at this
  have hps : ((sortedBuckets hashes).map Prod.snd).Nodup := by
    have := hp.map Prod.snd
    rw [List.zipIdx_map_snd] at this
    exact this.symm.nodup List.nodup_range'
  split at h
  · cases h
  · rename_i ds0 map0 hs
    cases h
    obtain ⟨g1, g2, g3⟩ := search_spec hpf hs
    refine ⟨g1, by simp, ?_⟩
    intro i x hx
    have hi := (List.getElem?_eq_some_iff.1 hx).1
    have hlt := Nat.mod_lt x.g.toNat (displacementsLen_pos (n := hashes.length) (by omega))
    have hmem := (mem_buckets (i := i) hlt).2 ⟨hi, by rw [hx]; rfl⟩
    cases hb : (bucketsOf hashes)[x.g.toNat % displacementsLen hashes.length]? with
    | none => rw [hb] at hmem; cases hmem
    | some b =>
      rw [hb] at hmem
      have hz : (b, x.g.toNat % displacementsLen hashes.length) ∈ sortedBuckets hashes := by
        rw [hp.mem_iff, List.mem_zipIdx_iff_getElem?]
        exact hb
      obtain ⟨p, hpp⟩ := List.mem_iff_getElem?.1 hz
      have h1 : ((sortedBuckets hashes).map Prod.fst)[p]? = some b := by rw [List.getElem?_map, hpp]; rfl
      have h2 : ((sortedBuckets hashes).map Prod.snd)[p]? = some (x.g.toNat % displacementsLen hashes.length) := by
        rw [List.getElem?_map, hpp]; rfl
      have hpl : p < ds0.length := by
        rw [g2, ← buckets_length, ← hpf.length_eq]
        exact (List.getElem?_eq_some_iff.1 h1).1
      refine ⟨ds0[p], ?_, ?_⟩
      · rw [List.getElem?_map, List.getElem?_range hlt, Option.map_some,
          lookup_zip hps h2 (List.getElem?_eq_getElem hpl)]
        rfl
      · have := g3 p b _ h1 (List.getElem?_eq_getElem hpl) i hmem
        unfold slotOf at this
        rw [hx] at this
        exact this

theorem generateCorrected_spec {K : Type} (hash : BitVec 64 → K → Hashes) (keys : List K) :
    ∀ (fuel : Nat) (rng : Nat → BitVec 64),
    generateCorrected hash keys fuel rng = .error .fuel ∨
    ∃ i ds map, i < fuel ∧ generateCorrected hash keys fuel rng = .ok (rng i, ds, map) ∧
      tryGenerateCorrected (keys.map (hash (rng i))) = some (ds, map)
  | 0, rng => .inl rfl
  | fuel + 1, rng => by
    unfold generateCorrected
    cases h : tryGenerateCorrected (keys.map (hash (rng 0))) with
    | some r => exact .inr ⟨0, r.1, r.2, by omega, rfl, h⟩
    | none =>
      dsimp only
      rcases generateCorrected_spec hash keys fuel (fun i => rng (i + 1)) with h1 | ⟨i, ds, map, h1, h2, h3⟩
      · exact .inl h1
      · exact .inr ⟨i + 1, ds, map, by omega, h2, h3⟩

section
variable {K V : Type} [DecidableEq K] (hash : BitVec 64 → K → Hashes)

theorem storeCorrected_spec {W : Type} (access : W → K) (rng : Nat → BitVec 64) (fuel : Nat) (es : List W) :
    storeCorrected hash access rng fuel es = .error .fuel ∨
    ∃ m, storeCorrected hash access rng fuel es = .ok m ∧ m.displacements.length = displacementsLen es.length ∧
      m.entries.length = es.length ∧ (∀ e ∈ m.entries, e ∈ es) ∧
      ∀ (i : Nat) (e : W), es[i]? = some e → ∃ d,
        m.displacements[(hash m.key (access e)).g.toNat % displacementsLen es.length]? = some d ∧
        m.entries[slot es.length d (hash m.key (access e))]? = some e := by
  unfold storeCorrected
  rcases generateCorrected_spec hash (es.map access) fuel rng with h | ⟨i, ds, map, -, h1, h2⟩
  · rw [h]; exact .inl rfl
  · rw [h1]
    obtain ⟨g1, g2, g3⟩ := tryGenerateCorrected_spec h2
    rw [List.length_map, List.length_map] at g1 g2 g3
    dsimp only
    have hall : ∀ x ∈ map, (x.bind fun k => es[k]?).isSome = true := by
      intro x hx
      obtain ⟨s, hs⟩ := List.mem_iff_getElem?.1 hx
      have hsl := (List.getElem?_eq_some_iff.1 hs).1
      rw [g1.length] at hsl
      obtain ⟨k, hk, hmk⟩ := g1.total s hsl
      rw [hs] at hmk
      cases hmk
      simp [hk]
    refine .inr ⟨_, rfl, g2, by rw [filterMap_length hall, g1.length], ?_, ?_⟩
    · intro e he
      obtain ⟨x, -, hx⟩ := List.mem_filterMap.1 he
      cases x with
      | none => cases hx
      | some k => exact List.mem_of_getElem? hx
    · intro j e he
      obtain ⟨d, q1, q2⟩ := g3 j (hash (rng i) (access e)) (by simp [List.getElem?_map, he])
      exact ⟨d, q1, by rw [filterMap_getElem? hall, q2]; exact he⟩

end
end Musli.Zero.Phf
