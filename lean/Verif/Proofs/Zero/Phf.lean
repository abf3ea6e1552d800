import Verif.Model.Zero.Phf
/-!
# Generation of perfect hash functions
-/
namespace Musli.Zero.Phf
open Musli

instance : Inhabited Hashes := ⟨⟨0, 0, 0⟩⟩

/-- The slot of a key under some displacements. -/
def slotOf (hashes : List Hashes) (n : Nat) (d : BitVec 32 × BitVec 32) (k : Nat) : Nat :=
  slot n d ((hashes[k]?).getD default)

theorem place_some (hashes : List Hashes) (n : Nat) (map : List (Option Nat)) (d : BitVec 32 × BitVec 32) :
    ∀ (bucket : List Nat) (acc vals : List (Nat × Nat)), place hashes n map d bucket acc = some vals →
      (acc.map Prod.fst).Nodup →
      vals = acc ++ bucket.map (fun k => (slotOf hashes n d k, k)) ∧ (vals.map Prod.fst).Nodup ∧
      ∀ k ∈ bucket, k < hashes.length ∧ map[slotOf hashes n d k]? = some none
  | [], acc, vals, h, hnd => by
    unfold place at h
    cases h
    exact ⟨by simp, hnd, fun k hk => by cases hk⟩
  | key :: rest, acc, vals, h, hnd => by
    unfold place at h
    split at h
    · cases h
    · rename_i hh heq
      dsimp only at h
      split at h
      · cases h
      · rename_i hno
        have h1 : map[slot n d hh]? = some none := by
          by_cases h1 : map[slot n d hh]? = some none
          · exact h1
          · exact absurd (.inl h1) hno
        have h2 : slot n d hh ∉ acc.map Prod.fst := fun h2 => hno (.inr h2)
        have hs : slotOf hashes n d key = slot n d hh := by unfold slotOf; rw [heq]; rfl
        obtain ⟨k1, k2, k3⟩ := place_some hashes n map d rest _ vals h (by
          rw [List.map_append, List.nodup_append]
          refine ⟨hnd, by simp, ?_⟩
          intro a ha b hb
          rw [List.map_singleton, List.mem_singleton] at hb
          subst hb
          rintro rfl
          exact h2 ha)
        refine ⟨?_, k2, ?_⟩
        · rw [k1, List.map_cons, hs, List.append_assoc]
          rfl
        · intro k hk
          rcases List.mem_cons.1 hk with rfl | hk
          · refine ⟨?_, by rw [hs]; exact h1⟩
            exact (List.getElem?_eq_some_iff.1 heq).1
          · exact k3 k hk

theorem searchBucket_some {hashes : List Hashes} {n : Nat} {map : List (Option Nat)} {bucket : List Nat}
    {d : BitVec 32 × BitVec 32} {vals : List (Nat × Nat)} (h : searchBucket hashes n map bucket = some (d, vals)) :
    place hashes n map d bucket [] = some vals := by
  unfold searchBucket at h
  obtain ⟨d1, -, h1⟩ := List.exists_of_findSome?_eq_some h
  obtain ⟨d2, -, h2⟩ := List.exists_of_findSome?_eq_some h1
  cases hp : place hashes n map (BitVec.ofNat 32 d1, BitVec.ofNat 32 d2) bucket [] with
  | none => rw [hp] at h2; cases h2
  | some v => rw [hp] at h2; cases h2; exact hp

theorem addAll_length : ∀ (A : List (Nat × Nat)) (map : List (Option Nat)), (addAll map A).length = map.length
  | [], _ => rfl
  | (i, k) :: A, map => by rw [addAll, addAll_length A, List.length_set]

theorem addAll_append : ∀ (A B : List (Nat × Nat)) (map : List (Option Nat)),
    addAll map (A ++ B) = addAll (addAll map A) B
  | [], _, _ => rfl
  | (i, k) :: A, B, map => by rw [List.cons_append, addAll, addAll, addAll_append A]

/-- What is in a map after writes to different places. -/
theorem addAll_get : ∀ (A : List (Nat × Nat)) (map : List (Option Nat)), (A.map Prod.fst).Nodup →
    (∀ i k, (i, k) ∈ A → i < map.length → (addAll map A)[i]? = some (some k)) ∧
    (∀ i, i ∉ A.map Prod.fst → (addAll map A)[i]? = map[i]?)
  | [], map, _ => ⟨fun i k h => (by cases h), fun i _ => rfl⟩
  | (j, v) :: A, map, h => by
    rw [List.map_cons, List.nodup_cons] at h
    obtain ⟨h1, h2⟩ := addAll_get A (map.set j (some v)) h.2
    refine ⟨fun i k hm hi => ?_, fun i hi => ?_⟩
    · rw [addAll]
      rcases List.mem_cons.1 hm with heq | hm
      · cases heq
        rw [h2 j h.1, List.getElem?_set_self hi]
      · exact h1 i k hm (by rw [List.length_set]; exact hi)
    · rw [List.map_cons, List.mem_cons] at hi
      rw [addAll, h2 i (fun h => hi (.inr h)), List.getElem?_set_ne (fun h => hi (.inl h.symm))]

/-- The state of the search: `A` are the values written so far. -/
theorem searchAll_some {hashes : List Hashes} {n : Nat} : ∀ (bs : List (List Nat)) (A : List (Nat × Nat))
    (ds : List (BitVec 32 × BitVec 32)) (map' : List (Option Nat)),
    searchAll hashes n bs (addAll (List.replicate n none) A) = some (ds, map') → (A.map Prod.fst).Nodup →
    (∀ i ∈ A.map Prod.fst, i < n) →
    ∃ B, map' = addAll (List.replicate n none) (A ++ B) ∧ ((A ++ B).map Prod.fst).Nodup ∧
      (∀ i ∈ (A ++ B).map Prod.fst, i < n) ∧ B.map Prod.snd = bs.flatten ∧ ds.length = bs.length ∧
      (∀ (p : Nat) b d, bs[p]? = some b → ds[p]? = some d → ∀ k ∈ b, k < hashes.length ∧ (slotOf hashes n d k, k) ∈ B)
  | [], A, ds, map', h, h1, h2 => by
    unfold searchAll at h
    cases h
    exact ⟨[], by simp, by simpa using h1, by simpa using h2, rfl, rfl,
      fun p b d hb => by simp at hb⟩
  | b :: bs, A, ds, map', h, h1, h2 => by
    unfold searchAll at h
    split at h
    · cases h
    · rename_i d vals hb
      split at h
      · cases h
      · rename_i ds' map'' hrest
        cases h
        obtain ⟨k1, k2, k3⟩ := place_some _ _ _ _ _ _ _ (searchBucket_some hb) (by simp)
        rw [List.nil_append] at k1
        rw [← addAll_append] at hrest
        have hdisj : ∀ i ∈ vals.map Prod.fst, i < n ∧ i ∉ A.map Prod.fst := by
          intro i hi
          rw [k1, List.map_map] at hi
          obtain ⟨k, hk, rfl⟩ := List.mem_map.1 hi
          have := (k3 k hk).2
          show slotOf hashes n d k < n ∧ slotOf hashes n d k ∉ _
          have hlt : slotOf hashes n d k < n := by
            have := (List.getElem?_eq_some_iff.1 this).1
            rw [addAll_length, List.length_replicate] at this
            exact this
          refine ⟨hlt, fun hm => ?_⟩
          obtain ⟨⟨i', k'⟩, hm1, hm2⟩ := List.mem_map.1 hm
          replace hm2 : i' = slotOf hashes n d k := hm2
          have := (addAll_get A (List.replicate n none) h1).1 i' k' hm1 (by rw [List.length_replicate, hm2]; exact hlt)
          rw [hm2] at this
          rw [(k3 k hk).2] at this
          cases this
        obtain ⟨B, g1, g2, g3, g4, g5, g7⟩ := searchAll_some bs (A ++ vals) ds' map' hrest
          (by
            rw [List.map_append, List.nodup_append]
            refine ⟨h1, k2, fun a ha b hb => ?_⟩
            rintro rfl
            exact (hdisj a hb).2 ha)
          (by
            intro i hi
            rw [List.map_append, List.mem_append] at hi
            rcases hi with hi | hi
            · exact h2 i hi
            · exact (hdisj i hi).1)
        rw [List.append_assoc] at g1 g2 g3
        refine ⟨vals ++ B, g1, g2, g3, ?_, by simp [g5], ?_⟩
        · rw [List.map_append, g4, List.flatten_cons, k1, List.map_map]
          congr 1
          induction b with
          | nil => rfl
          | cons x b _ => simp [Function.comp_def]
        · intro p b' d' hp hd k hk
          cases p with
          | zero =>
            cases hp
            cases hd
            exact ⟨(k3 k hk).1, List.mem_append.2 (.inl (by rw [k1]; exact List.mem_map.2 ⟨k, hk, rfl⟩))⟩
          | succ p =>
            obtain ⟨j1, j2⟩ := g7 p b' d' hp hd k hk
            exact ⟨j1, List.mem_append.2 (.inr j2)⟩

theorem inj_of_nodup_map {α β : Type} {f : α → β} : ∀ {l : List α}, (l.map f).Nodup → ∀ {x y : α}, x ∈ l → y ∈ l →
    f x = f y → x = y
  | [], _, _, _, h, _, _ => by cases h
  | a :: l, hn, x, y, hx, hy, he => by
    rw [List.map_cons, List.nodup_cons] at hn
    rcases List.mem_cons.1 hx with h1 | h1
    · rcases List.mem_cons.1 hy with h2 | h2
      · rw [h1, h2]
      · exact absurd (List.mem_map.2 ⟨y, h2, by rw [← he, h1]⟩) hn.1
    · rcases List.mem_cons.1 hy with h2 | h2
      · exact absurd (List.mem_map.2 ⟨x, h1, by rw [he, h2]⟩) hn.1
      · exact inj_of_nodup_map hn.2 h1 h2 he

theorem mem_buckets {hashes : List Hashes} {b i : Nat} (hb : b < displacementsLen hashes.length) :
    i ∈ ((bucketsOf hashes)[b]?).getD [] ↔ i < hashes.length ∧
      ((hashes[i]?).getD default).g.toNat % displacementsLen hashes.length = b := by
  unfold bucketsOf
  rw [List.getElem?_map, List.getElem?_range hb]
  simp only [Option.map_some, Option.getD_some, List.mem_filter, List.mem_range]
  constructor
  · rintro ⟨h1, h2⟩
    refine ⟨h1, ?_⟩
    rw [List.getElem?_eq_getElem h1] at h2 ⊢
    simpa using h2
  · rintro ⟨h1, h2⟩
    refine ⟨h1, ?_⟩
    rw [List.getElem?_eq_getElem h1] at h2 ⊢
    simpa using h2

theorem buckets_length (hashes : List Hashes) : (bucketsOf hashes).length = displacementsLen hashes.length := by
  simp [bucketsOf]

theorem displacementsLen_pos {n : Nat} (h : 0 < n) : 0 < displacementsLen n := by
  unfold displacementsLen; omega

theorem mem_buckets_flatten {hashes : List Hashes} {i : Nat} :
    i ∈ (bucketsOf hashes).flatten ↔ i < hashes.length := by
  rw [List.mem_flatten]
  constructor
  · rintro ⟨l, hl, hi⟩
    obtain ⟨b, hb⟩ := List.mem_iff_getElem?.1 hl
    have hlt := (List.getElem?_eq_some_iff.1 hb).1
    rw [buckets_length] at hlt
    have := (mem_buckets (i := i) hlt).1
    rw [hb] at this
    exact (this hi).1
  · intro h
    have hlt := Nat.mod_lt ((hashes[i]?).getD default).g.toNat (displacementsLen_pos (n := hashes.length) (by omega))
    have := (mem_buckets (i := i) hlt).2 ⟨h, rfl⟩
    cases hb : (bucketsOf hashes)[((hashes[i]?).getD default).g.toNat % displacementsLen hashes.length]? with
    | none => rw [hb] at this; cases this
    | some l => rw [hb] at this; exact ⟨l, List.mem_iff_getElem?.2 ⟨_, hb⟩, this⟩

theorem buckets_nodup (hashes : List Hashes) : (bucketsOf hashes).flatten.Nodup := by
  unfold List.Nodup
  rw [List.pairwise_flatten]
  refine ⟨?_, ?_⟩
  · intro l hl
    unfold bucketsOf at hl
    obtain ⟨b, -, rfl⟩ := List.mem_map.1 hl
    exact List.nodup_range.filter _
  · rw [List.pairwise_iff_getElem]
    intro i j hi hj hij x hx y hy
    rintro rfl
    rw [buckets_length] at hi hj
    have h1 := (mem_buckets (i := x) hi).1 (by rw [List.getElem?_eq_getElem (by rw [buckets_length]; exact hi)]; exact hx)
    have h2 := (mem_buckets (i := x) hj).1 (by rw [List.getElem?_eq_getElem (by rw [buckets_length]; exact hj)]; exact hy)
    omega

/-- The table maps the slots one to one to the keys. -/
structure PermMap (n : Nat) (map : List (Option Nat)) : Prop where
  length : map.length = n
  total : ∀ s, s < n → ∃ k, k < n ∧ map[s]? = some (some k)
  inj : ∀ (s t k : Nat), map[s]? = some (some k) → map[t]? = some (some k) → s = t

/-- The search over the buckets in any order. -/
theorem search_spec {hashes : List Hashes} {bs : List (List Nat)} {ds : List (BitVec 32 × BitVec 32)}
    {map : List (Option Nat)} (hperm : bs.Perm (bucketsOf hashes))
    (h : searchAll hashes hashes.length bs (List.replicate hashes.length none) = some (ds, map)) :
    PermMap hashes.length map ∧ ds.length = displacementsLen hashes.length ∧
    ∀ (p : Nat) b d, bs[p]? = some b →
      ds[p]? = some d → ∀ k ∈ b, map[slotOf hashes hashes.length d k]? = some (some k) := by
  obtain ⟨B, g1, g2, g3, g4, g5, g6⟩ := searchAll_some _ [] _ _ h (by simp) (by simp)
  rw [List.nil_append] at g1 g2 g3
  have hflat := hperm.flatten
  have hnd : (B.map Prod.snd).Nodup := by
    rw [g4]
    exact hflat.symm.nodup (buckets_nodup hashes)
  have hmem : ∀ i, i ∈ B.map Prod.snd ↔ i < hashes.length := by
    intro i
    rw [g4, hflat.mem_iff, mem_buckets_flatten]
  have hge : hashes.length ≤ B.length := by
    have hsub : List.range hashes.length ⊆ B.map Prod.snd := by
      intro i hi
      rw [hmem]
      exact List.mem_range.1 hi
    have := List.nodup_range.length_le_of_subset hsub
    rwa [List.length_range, List.length_map] at this
  have hget : ∀ s k, (s, k) ∈ B → map[s]? = some (some k) := by
    intro s k hm
    rw [g1]
    refine (addAll_get B _ g2).1 s k hm ?_
    rw [List.length_replicate]
    exact g3 s (List.mem_map.2 ⟨_, hm, rfl⟩)
  have hlen : map.length = hashes.length := by rw [g1, addAll_length, List.length_replicate]
  have hcov : ∀ s, s < hashes.length → ∃ k, (s, k) ∈ B := by
    intro s hs
    by_cases hin : s ∈ B.map Prod.fst
    · obtain ⟨⟨s', k⟩, h1, h2⟩ := List.mem_map.1 hin
      replace h2 : s' = s := h2
      rw [← h2]
      exact ⟨k, h1⟩
    · exfalso
      have h1 : (s :: B.map Prod.fst).Nodup := List.nodup_cons.2 ⟨hin, g2⟩
      have h2 : (s :: B.map Prod.fst) ⊆ List.range hashes.length := by
        intro x hx
        rw [List.mem_range]
        rcases List.mem_cons.1 hx with rfl | hx
        · exact hs
        · exact g3 x hx
      have := h1.length_le_of_subset h2
      rw [List.length_cons, List.length_map, List.length_range] at this
      omega
  refine ⟨⟨hlen, ?_, ?_⟩, ?_, ?_⟩
  · intro s hs
    obtain ⟨k, hk⟩ := hcov s hs
    exact ⟨k, (hmem k).1 (List.mem_map.2 ⟨_, hk, rfl⟩), hget s k hk⟩
  · intro s t k hs ht
    have hs' : s < hashes.length := by rw [← hlen]; exact (List.getElem?_eq_some_iff.1 hs).1
    have ht' : t < hashes.length := by rw [← hlen]; exact (List.getElem?_eq_some_iff.1 ht).1
    obtain ⟨k1, h1⟩ := hcov s hs'
    obtain ⟨k2, h2⟩ := hcov t ht'
    rw [hget s k1 h1] at hs
    rw [hget t k2 h2] at ht
    cases hs
    cases ht
    have := inj_of_nodup_map hnd h1 h2 rfl
    exact congrArg Prod.fst this
  · rw [g5, hperm.length_eq, buckets_length]
  · intro p b d hp hd k hk
    exact hget _ _ (g6 p b d hp hd k hk).2

theorem tryGenerate_spec {hashes : List Hashes} {ds : List (BitVec 32 × BitVec 32)} {map : List (Option Nat)}
    (h : tryGenerate hashes = some (ds, map)) :
    PermMap hashes.length map ∧ ds.length = displacementsLen hashes.length ∧
    ∀ (p : Nat) b d, ((bucketsOf hashes).mergeSort (fun a b => decide (a.length ≤ b.length)))[p]? = some b →
      ds[p]? = some d → ∀ k ∈ b, map[slotOf hashes hashes.length d k]? = some (some k) :=
  search_spec (List.mergeSort_perm (bucketsOf hashes) (fun a b => decide (a.length ≤ b.length))) h

/-! ## The permutation of the entries -/

theorem swapAt_spec {α : Type} {l : List α} {i j : Nat} (hi : i < l.length) (hj : j < l.length) (hij : i ≠ j) :
    ∃ l', swapAt l i j = some l' ∧ l'.length = l.length ∧ l'[i]? = l[j]? ∧ l'[j]? = l[i]? ∧
      ∀ t, t ≠ i → t ≠ j → l'[t]? = l[t]? := by
  unfold swapAt
  rw [List.getElem?_eq_getElem hi, List.getElem?_eq_getElem hj]
  refine ⟨_, rfl, by simp, ?_, ?_, ?_⟩
  · rw [List.getElem?_set_ne (fun h => hij h.symm), List.getElem?_set_self hi]
  · rw [List.getElem?_set_self (by rw [List.length_set]; exact hj)]
  · intro t h1 h2
    rw [List.getElem?_set_ne (fun h => h2 h.symm), List.getElem?_set_ne (fun h => h1 h.symm)]

/-- The elements keep their place in the other table. -/
def Back {V : Type} (e' : List V) (m' : List (Option Nat)) (e : List V) (m : List (Option Nat)) : Prop :=
  ∀ (s : Nat) x (k : Nat), e'[s]? = some x → m'[s]? = some (some k) → ∃ s0 : Nat, e[s0]? = some x ∧ m[s0]? = some (some k)

theorem swapLoop_spec {V : Type} {n f : Nat} (hf : f < n) : ∀ (fuel : Nat) (e : List V) (m : List (Option Nat)) (F : List Nat),
    PermMap n m → e.length = n → F.Nodup → (∀ j ∈ F, m[j]? = some (some j)) → n < fuel + F.length →
    ∃ e' m', swapLoop f fuel e m = .ok (e', m') ∧ PermMap n m' ∧ e'.length = n ∧ m'[f]? = some (some f) ∧
      (∀ j : Nat, m[j]? = some (some j) → m'[j]? = some (some j)) ∧ Back e' m' e m
  | 0, e, m, F, hm, he, hn, hF, hlt => by
    exfalso
    have hsub : F ⊆ List.range n := by
      intro j hj
      rw [List.mem_range, ← hm.length]
      exact (List.getElem?_eq_some_iff.1 (hF j hj)).1
    have := hn.length_le_of_subset hsub
    rw [List.length_range] at this
    omega
  | fuel + 1, e, m, F, hm, he, hn, hF, hlt => by
    obtain ⟨to, hto, hmf⟩ := hm.total f hf
    unfold swapLoop
    rw [hmf]
    dsimp only
    by_cases hft : f = to
    · subst hft
      rw [if_neg (by simp)]
      exact ⟨e, m, rfl, hm, he, hmf, fun _ h => h, fun s x k h1 h2 => ⟨s, h1, h2⟩⟩
    · rw [if_pos hft]
      obtain ⟨e1, a1, a2, a3, a4, a5⟩ := swapAt_spec (l := e) (i := f) (j := to) (by omega) (by omega) hft
      obtain ⟨m1, b1, b2, b3, b4, b5⟩ := swapAt_spec (l := m) (i := f) (j := to) (by rw [hm.length]; exact hf)
        (by rw [hm.length]; exact hto) hft
      rw [a1, b1]
      dsimp only
      have hmto : m[to]? ≠ some (some to) := fun h => hft (hm.inj f to to hmf h)
      have hm1 : PermMap n m1 := by
        refine ⟨by rw [b2, hm.length], ?_, ?_⟩
        · intro s hs
          by_cases h1 : s = f
          · rw [h1, b3]; exact hm.total to hto
          · by_cases h2 : s = to
            · rw [h2, b4]; exact hm.total f hf
            · rw [b5 s h1 h2]; exact hm.total s hs
        · -- through the swap of the indices
          have key : ∀ s : Nat, m1[s]? = m[if s = f then to else if s = to then f else s]? := by
            intro s
            by_cases h1 : s = f
            · rw [if_pos h1, h1, b3]
            · rw [if_neg h1]
              by_cases h2 : s = to
              · rw [if_pos h2, h2, b4]
              · rw [if_neg h2, b5 s h1 h2]
          intro s t k hs ht
          rw [key] at hs ht
          have := hm.inj _ _ k hs ht
          by_cases h1 : s = f <;> by_cases h2 : t = f <;> by_cases h3 : s = to <;> by_cases h4 : t = to <;>
            simp_all
      obtain ⟨e', m', c1, c2, c3, c4, c5, c6⟩ := swapLoop_spec hf fuel e1 m1 (to :: F) hm1 (by rw [a2, he])
        (List.nodup_cons.2 ⟨fun h => hmto (hF to h), hn⟩)
        (by
          intro j hj
          rcases List.mem_cons.1 hj with rfl | hj
          · rw [b4]; exact hmf
          · have hjj := hF j hj
            rw [b5 j ?_ ?_]
            · exact hjj
            · rintro rfl
              rw [hmf] at hjj
              cases hjj
              exact hft rfl
            · rintro rfl
              exact hmto hjj)
        (by rw [List.length_cons]; omega)
      refine ⟨e', m', c1, c2, c3, c4, ?_, ?_⟩
      · intro j hj
        apply c5
        rw [b5 j ?_ ?_]
        · exact hj
        · rintro rfl
          rw [hmf] at hj
          cases hj
          exact hft rfl
        · rintro rfl
          exact hmto hj
      · intro s x k h1 h2
        obtain ⟨s0, h3, h4⟩ := c6 s x k h1 h2
        by_cases h5 : s0 = f
        · rw [h5, a3] at h3
          rw [h5, b3] at h4
          exact ⟨to, h3, h4⟩
        · by_cases h6 : s0 = to
          · rw [h6, a4] at h3
            rw [h6, b4] at h4
            exact ⟨f, h3, h4⟩
          · rw [a5 s0 h5 h6] at h3
            rw [b5 s0 h5 h6] at h4
            exact ⟨s0, h3, h4⟩

theorem swapAll_spec {V : Type} {n : Nat} : ∀ (fs : List Nat) (e : List V) (m : List (Option Nat)),
    PermMap n m → e.length = n → (∀ f ∈ fs, f < n) → (∀ j, j < n → j ∉ fs → m[j]? = some (some j)) →
    ∃ e', swapAll n fs e m = .ok e' ∧ e'.length = n ∧
      ∀ k x, e'[k]? = some x → ∃ s0 : Nat, e[s0]? = some x ∧ m[s0]? = some (some k)
  | [], e, m, hm, he, hfs, hfix => by
    refine ⟨e, rfl, he, ?_⟩
    intro k x hx
    exact ⟨k, hx, hfix k (by rw [← he]; exact (List.getElem?_eq_some_iff.1 hx).1) (by simp)⟩
  | f :: fs, e, m, hm, he, hfs, hfix => by
    obtain ⟨e1, m1, h1, h2, h3, h4, h5, h6⟩ := swapLoop_spec (hfs f (by simp)) (n + 1) e m [] hm he (by simp)
      (fun j hj => by cases hj) (by simp)
    unfold swapAll
    rw [h1]
    dsimp only
    obtain ⟨e', g1, g2, g3⟩ := swapAll_spec fs e1 m1 h2 h3 (fun g hg => hfs g (List.mem_cons_of_mem _ hg)) (by
      intro j hj hjn
      by_cases hjf : j = f
      · rw [hjf]; exact h4
      · exact h5 j (hfix j hj (by simp [hjf, hjn])))
    refine ⟨e', g1, g2, ?_⟩
    intro k x hx
    obtain ⟨s0, k1, k2⟩ := g3 k x hx
    exact h6 s0 x k k1 k2

theorem generate_spec {K : Type} (hash : BitVec 64 → K → Hashes) (keys : List K) : ∀ (fuel : Nat) (rng : Nat → BitVec 64),
    generate hash keys fuel rng = .error .fuel ∨
    ∃ i ds map, i < fuel ∧ generate hash keys fuel rng = .ok (rng i, ds, map) ∧
      tryGenerate (keys.map (hash (rng i))) = some (ds, map)
  | 0, rng => .inl rfl
  | fuel + 1, rng => by
    unfold generate
    cases h : tryGenerate (keys.map (hash (rng 0))) with
    | some r => exact .inr ⟨0, r.1, r.2, by omega, rfl, h⟩
    | none =>
      dsimp only
      rcases generate_spec hash keys fuel (fun i => rng (i + 1)) with h1 | ⟨i, ds, map, h1, h2, h3⟩
      · exact .inl h1
      · exact .inr ⟨i + 1, ds, map, by omega, h2, h3⟩

/-- Two keys with the same hashes. -/
theorem tryGenerate_dup {hashes : List Hashes} {i j : Nat} (hij : i ≠ j) (hi : i < hashes.length)
    (hj : j < hashes.length) (he : hashes[i]? = hashes[j]?) : tryGenerate hashes = none := by
  cases h : tryGenerate hashes with
  | none => rfl
  | some r =>
    exfalso
    obtain ⟨ds, map⟩ := r
    obtain ⟨h1, h2, h3⟩ := tryGenerate_spec h
    have hperm := List.mergeSort_perm (bucketsOf hashes) (fun a b => decide (a.length ≤ b.length))
    have hlt := Nat.mod_lt ((hashes[i]?).getD default).g.toNat (displacementsLen_pos (n := hashes.length) (by omega))
    have hbi := (mem_buckets (i := i) hlt).2 ⟨hi, rfl⟩
    have hbj := (mem_buckets (i := j) hlt).2 ⟨hj, by rw [he]⟩
    cases hb : (bucketsOf hashes)[((hashes[i]?).getD default).g.toNat % displacementsLen hashes.length]? with
    | none => rw [hb] at hbi; cases hbi
    | some b =>
      rw [hb] at hbi hbj
      obtain ⟨p, hp⟩ := List.mem_iff_getElem?.1 (hperm.mem_iff.2 (List.mem_iff_getElem?.2 ⟨_, hb⟩))
      have hpl : p < ds.length := by
        rw [h2, ← buckets_length, ← hperm.length_eq]
        exact (List.getElem?_eq_some_iff.1 hp).1
      have k1 := h3 p b _ hp (List.getElem?_eq_getElem hpl) i hbi
      have k2 := h3 p b _ hp (List.getElem?_eq_getElem hpl) j hbj
      have : slotOf hashes hashes.length ds[p] i = slotOf hashes hashes.length ds[p] j := by
        unfold slotOf
        rw [he]
      rw [this, k2] at k1
      cases k1
      exact hij rfl

end Musli.Zero.Phf
