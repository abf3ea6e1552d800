import Verif.Props.ZeroSwiss
import Verif.Model.Zero.SwissFixed
/-!
# C46 and C47 with corrections

The length is wrong (`C46_full_statement_false`), and some tables cannot be bound (`C47_full_statement_false`). With two corrections both
properties hold.
-/
namespace Musli.Zero.Swiss
open Musli

/-- Nothing else of the table changes. -/
theorem storeC_eq {V : Type} (p : Platform) (hash : V → BitVec 64) (zero : V) (vs : List V) (hl : vs.length * 8 < 2 ^ 64) :
    ∃ m, store p.group hash zero vs = .ok m ∧ storeC p.group hash zero vs = .ok { m with len := vs.length } := by
  obtain ⟨b, t, c, h1, -, -, -, h5, h6⟩ := store_ok p.lawful hash zero vs hl
  refine ⟨t, h1, ?_⟩
  obtain ⟨b', hb', hbb, hcap, hlt⟩ := buckets_spec _ _ h5
  obtain rfl : b = b' := (Nat.pow_right_inj (by decide)).1 hb'
  obtain ⟨t', c', k1, -, k3, k4⟩ := insertAll_good p.lawful hbb (hash := hash) vs [] (newTable p.group (2 ^ b) zero) _
    (new_good p.group b hash zero) rfl (by simpa using hlt) hcap
  unfold store at h1
  unfold storeC
  rw [h5] at h1 ⊢
  dsimp only at h1 ⊢
  rw [k1] at h1 ⊢
  cases h1
  have hm : t'.mask = 2 ^ b - 1 := by rw [k3]; rfl
  have hg : t'.growthLeft + vs.length = maskToCapacity (2 ^ b - 1) := k4
  dsimp only
  rw [hm, ← hg]
  congr 2
  omega

/-- **C46**, the full statement, with the correction: `len()` is the number of entries, and all else is as in the code. -/
theorem C46_corrected {V : Type} (p : Platform) (hash : V → BitVec 64) (zero : V) (vs : List V) (hl : vs.length * 8 < 2 ^ 64) :
    ∃ m m', storeC p.group hash zero vs = .ok m ∧ m.len = vs.length ∧
      store p.group hash zero vs = .ok m' ∧ m.ctrl = m'.ctrl ∧ m.entries = m'.entries ∧ m.mask = m'.mask := by
  obtain ⟨m, h1, h2⟩ := storeC_eq p hash zero vs hl
  exact ⟨_, m, h2, rfl, h1, rfl, rfl, rfl⟩

/-- **C47**, the full statement, with the correction, for all types: a stored map or set can be bound if and only if the stored entries are
valid. -/
theorem C47_corrected {V : Type} (p : Platform) (hash : V → BitVec 64) (valid : V → Bool) (zero : V) (vs : List V)
    (hl : vs.length * 8 < 2 ^ 64) :
    ∃ m, store p.group hash zero vs = .ok m ∧ (m.bindC valid = .ok m ↔ ∀ v ∈ vs, valid v = true) ∧
      ((∃ v ∈ vs, valid v = false) → m.bindC valid = .error .illegal) := by
  obtain ⟨b, t, c, h1, hgood, hmask, -, h5, -⟩ := store_ok p.lawful hash zero vs hl
  have hlen : t.ctrl.length ≤ 2 ^ b + p.group.width := by
    unfold store at h1
    rw [h5] at h1
    dsimp only at h1
    split at h1
    · cases h1
    · cases h1
      rw [List.length_take]
      omega
  have hiff : (List.range t.ctrl.length).all (t.bucketOk valid) = true ↔ ∀ v ∈ vs, valid v = true := by
    rw [List.all_eq_true]
    constructor
    · intro h v hv
      obtain ⟨i, J, hi, hc, he, -⟩ := hgood.placed v hv
      have hlt : i < t.ctrl.length := by have := hgood.view.long; omega
      have h2 := h i (List.mem_range.2 hlt)
      unfold Raw.bucketOk at h2
      rw [hgood.view.at_lt hi, hmask, Nat.and_two_pow_sub_one_eq_mod, Nat.mod_eq_of_lt hi, he] at h2
      dsimp only at h2
      rw [hc, h2_full] at h2
      simpa using h2
    · intro h i hi
      rw [List.mem_range] at hi
      unfold Raw.bucketOk
      rw [hgood.view.at_ i (by omega), hmask, Nat.and_two_pow_sub_one_eq_mod]
      have hmod : i % 2 ^ b < 2 ^ b := Nat.mod_lt _ (Nat.pow_pos (by omega))
      have hb : t.entries[i % 2 ^ b]? = some (t.entries[i % 2 ^ b]'(by rw [hgood.length]; exact hmod)) := List.getElem?_eq_getElem _
      rw [hb]
      dsimp only
      by_cases hx : 2 ^ b ≤ i ∧ i < p.group.width
      · rw [if_pos hx, isFull_empty]; rfl
      · rw [if_neg hx]
        by_cases he : c (i % 2 ^ b) = empty
        · rw [he, isFull_empty]; rfl
        · obtain ⟨v, hv, he'⟩ := hgood.held _ hmod he
          rw [hb] at he'
          rw [Option.some.inj he', h v hv, Bool.or_true]
  refine ⟨t, h1, ?_, ?_⟩
  · unfold Raw.bindC
    rw [← hiff]
    by_cases hx : (List.range t.ctrl.length).all (t.bucketOk valid) = true
    · rw [if_pos hx]; exact ⟨fun _ => hx, fun _ => rfl⟩
    · rw [if_neg hx]; exact ⟨fun h => (by cases h), fun h => absurd h hx⟩
  · rintro ⟨v, hv, hf⟩
    unfold Raw.bindC
    rw [if_neg]
    intro hx
    rw [hiff.1 hx v hv] at hf
    cases hf

/-! ## Examples -/

/-- Eight entries. -/
example : (match storeC Platform.sse2.group (fun e => BitVec.ofNat 64 e.1) ((0, 0) : Nat × Nat)
      [(0, 0), (1, 0), (2, 0), (3, 0), (4, 0), (5, 0), (6, 0), (7, 0)] with
    | .ok m => m.len
    | .error _ => 0) = 8 := by decide +kernel

/-- Keys which are never zero. -/
example : (match storeMap Platform.sse2.group (fun k => BitVec.ofNat 64 k) (0, 0) [(1, 10)] with
    | .ok m => ((m.bind (fun e => e.1 != 0)).isOk, (m.bindC (fun e => e.1 != 0)).isOk, (m.bindC (fun e => e.1 != 1)).isOk)
    | .error _ => (true, true, true)) = (false, true, false) := by decide +kernel

end Musli.Zero.Swiss
