import Verif.Spec.Types
/-!
# Completing implementations
-/
namespace Musli.Types
open Musli

set_option linter.unusedSectionVars false

/-- How many are missing. -/
def isMissing (n : Bytes) (m : List (Bytes × Extra)) : Nat := m.countP fun p => p.1 == n

/-- How many are compiled of those which are put in under conditions. -/
def isPending (env : Nat → Bool) (n : Bytes) (acc : List (Bytes × Cfg × Extra)) : Nat :=
  acc.countP fun p => p.1 == n && !p.2.1.holds env

theorem isMissing_remove (n name : Bytes) (m : List (Bytes × Extra)) :
    isMissing n (remove m name) = if n = name then 0 else isMissing n m := by
  unfold isMissing remove
  induction m with
  | nil => simp
  | cons p m ih =>
    rw [List.filter_cons]
    by_cases hp : p.1 = name
    · rw [if_neg (by simp [hp]), ih, List.countP_cons]
      by_cases hn : n = name
      · simp [hn]
      · rw [if_neg hn, if_neg hn, if_neg (by rw [hp]; simpa using fun e => hn e.symm), Nat.add_zero]
    · rw [if_pos (by simpa using hp), List.countP_cons, ih, List.countP_cons]
      by_cases hn : n = name
      · rw [if_pos hn, if_pos hn, if_neg (by rw [hn]; simpa using hp)]
      · rw [if_neg hn, if_neg hn]

theorem isPending_append (env : Nat → Bool) (n : Bytes) (acc : List (Bytes × Cfg × Extra)) (x : Bytes × Cfg × Extra) :
    isPending env n (acc ++ [x]) = isPending env n acc + if x.1 == n && !x.2.1.holds env then 1 else 0 := by
  unfold isPending
  rw [List.countP_append, List.countP_cons, List.countP_nil]; simp

theorem lookup_missing {n : Bytes} {m : List (Bytes × Extra)} : m.lookup n = none ↔ isMissing n m = 0 := by
  unfold isMissing
  induction m with
  | nil => simp
  | cons p m ih =>
    obtain ⟨a, b⟩ := p
    rw [List.lookup_cons, List.countP_cons]
    by_cases h : n = a
    · simp [h]
    · have e : (n == a) = false := by simpa using h
      have e' : (a == n) = false := by simpa using fun e => h e.symm
      rw [e]; simp [e', ih]

theorem written_named {n name : Bytes} {i : Item} {items : List Item} (h : Spec.name i = some name) :
    Spec.written n (i :: items) = Spec.written n items + if name = n then 1 else 0 := by
  unfold Spec.written
  rw [List.countP_cons, h]
  simp

theorem written_other {n : Bytes} {k : Nat} {items : List Item} : Spec.written n (.other k :: items) = Spec.written n items := by
  unfold Spec.written
  rw [List.countP_cons, if_neg (by simp [Spec.name])]; rfl

/-- What is not written stays missing. -/
theorem scan_not_written (env : Nat → Bool) (n : Bytes) : ∀ (items : List Item) (m m' : List (Bytes × Extra)) (acc acc' : List (Bytes × Cfg × Extra)),
    scan items m acc = .ok (m', acc') → Spec.written n items = 0 → isMissing n m' = isMissing n m ∧ isPending env n acc' = isPending env n acc
  | [], m, m', acc, acc', h, _ => by cases h; exact ⟨rfl, rfl⟩
  | .fn name c b :: rest, m, m', acc, acc', h, hw => by
    rw [written_named (name := name) rfl] at hw
    have hne : n ≠ name := by intro e; rw [if_pos e.symm] at hw; omega
    obtain ⟨h1, h2⟩ := scan_not_written env n rest _ _ _ _ h (by omega)
    exact ⟨by rw [h1, isMissing_remove, if_neg hne], h2⟩
  | .type name c t :: rest, m, m', acc, acc', h, hw => by
    rw [written_named (name := name) rfl] at hw
    have hne : n ≠ name := by intro e; rw [if_pos e.symm] at hw; omega
    have hw' : Spec.written n rest = 0 := by omega
    unfold scan at h
    split at h
    · exact scan_not_written env n rest _ _ _ _ h hw'
    · split at h
      · obtain ⟨h1, h2⟩ := scan_not_written env n rest _ _ _ _ h hw'
        exact ⟨by rw [h1, isMissing_remove, if_neg hne], h2⟩
      · obtain ⟨h1, h2⟩ := scan_not_written env n rest _ _ _ _ h hw'
        refine ⟨by rw [h1, isMissing_remove, if_neg hne], ?_⟩
        rw [h2, isPending_append, if_neg (by simp; intro e; exact absurd e.symm hne), Nat.add_zero]
      · cases h
  | .other k :: rest, m, m', acc, acc', h, hw => by
    rw [written_other] at hw
    exact scan_not_written env n rest _ _ _ _ h hw

theorem compiled_cons (env : Nat → Bool) (n : Bytes) (i : Item) (items : List Item) :
    (Spec.compiled env n (i :: items)).length = (Spec.compiled env n items).length +
      if (decide (Spec.name i = some n) && (Spec.conditions i).all (Cfg.holds env)) = true then 1 else 0 := by
  unfold Spec.compiled
  rw [List.filter_cons]
  split <;> simp

theorem compiled_not_written (env : Nat → Bool) {n : Bytes} {items : List Item} (h : Spec.written n items = 0) :
    (Spec.compiled env n items).length = 0 := by
  unfold Spec.written at h
  rw [List.countP_eq_zero] at h
  unfold Spec.compiled
  rw [List.length_eq_zero_iff, List.filter_eq_nil_iff]
  intro i hi
  have := h i hi
  simp at this
  simp [this]

/-- What is written is put in when its condition does not hold. -/
theorem scan_once (env : Nat → Bool) (n : Bytes) : ∀ (items : List Item) (m m' : List (Bytes × Extra)) (acc acc' : List (Bytes × Cfg × Extra)),
    scan items m acc = .ok (m', acc') → Spec.Plain n items → isMissing n m = 1 →
    (Spec.compiled env n items).length + isMissing n m' + isPending env n acc' = isPending env n acc + 1
  | [], m, m', acc, acc', h, _, h1 => by cases h; simp [Spec.compiled]; omega
  | .fn name c b :: rest, m, m', acc, acc', h, ⟨hw, hf⟩, h1 => by
    rw [written_named (name := name) rfl] at hw
    have hf' : ∀ i ∈ rest, Spec.name i = some n → (∃ m c b, i = Item.fn m c b) → Spec.conditions i = [] :=
      fun i hi => hf i (List.mem_cons_of_mem _ hi)
    rw [compiled_cons]
    by_cases hne : name = n
    · subst hne
      rw [if_pos rfl] at hw
      have hw' : Spec.written name rest = 0 := by omega
      obtain ⟨h2, h3⟩ := scan_not_written env name rest _ _ _ _ h hw'
      have hc : c = [] := hf (.fn name c b) List.mem_cons_self rfl ⟨_, _, _, rfl⟩
      rw [compiled_not_written env hw', h2, h3, isMissing_remove, if_pos rfl, if_pos (by simp [Spec.name, Spec.conditions, hc])]
      omega
    · rw [if_neg hne] at hw
      have := scan_once env n rest _ _ _ _ h ⟨by omega, hf'⟩ (by rw [isMissing_remove, if_neg (Ne.symm hne)]; exact h1)
      rw [if_neg (by simp [Spec.name, hne])]
      omega
  | .type name c t :: rest, m, m', acc, acc', h, ⟨hw, hf⟩, h1 => by
    rw [written_named (name := name) rfl] at hw
    have hf' : ∀ i ∈ rest, Spec.name i = some n → (∃ m c b, i = Item.fn m c b) → Spec.conditions i = [] :=
      fun i hi => hf i (List.mem_cons_of_mem _ hi)
    rw [compiled_cons]
    unfold scan at h
    by_cases hne : name = n
    · subst hne
      rw [if_pos rfl] at hw
      have hw' : Spec.written name rest = 0 := by omega
      rw [compiled_not_written env hw']
      split at h
      · next hl => rw [lookup_missing] at hl; omega
      · split at h
        · obtain ⟨h2, h3⟩ := scan_not_written env name rest _ _ _ _ h hw'
          rw [h2, h3, isMissing_remove, if_pos rfl, if_pos (by simp [Spec.name, Spec.conditions])]
          omega
        · next cfg =>
          obtain ⟨h2, h3⟩ := scan_not_written env name rest _ _ _ _ h hw'
          rw [h2, h3, isMissing_remove, if_pos rfl, isPending_append]
          cases hb : cfg.holds env
          · rw [if_neg (by simp [Spec.name, Spec.conditions, hb]), if_pos (by simp)]; omega
          · rw [if_pos (by simp [Spec.name, Spec.conditions, hb]), if_neg (by simp)]; omega
        · cases h
    · rw [if_neg hne] at hw
      have hp : Spec.Plain n rest := ⟨by omega, hf'⟩
      have hr : isMissing n (remove m name) = 1 := by rw [isMissing_remove, if_neg (Ne.symm hne)]; exact h1
      rw [if_neg (by simp [Spec.name, hne])]
      split at h
      · have := scan_once env n rest _ _ _ _ h hp h1; omega
      · split at h
        · have := scan_once env n rest _ _ _ _ h hp hr; omega
        · have := scan_once env n rest _ _ _ _ h hp hr
          rw [isPending_append, if_neg (by simp [hne])] at this
          omega
        · cases h
  | .other k :: rest, m, m', acc, acc', h, ⟨hw, hf⟩, h1 => by
    rw [written_other] at hw
    have := scan_once env n rest _ _ _ _ h ⟨hw, fun i hi => hf i (List.mem_cons_of_mem _ hi)⟩ h1
    rw [compiled_cons, if_neg (by simp [Spec.name])]
    omega

theorem compiled_append (env : Nat → Bool) (n : Bytes) (a b : List Item) :
    (Spec.compiled env n (a ++ b)).length = (Spec.compiled env n a).length + (Spec.compiled env n b).length := by
  unfold Spec.compiled
  rw [List.filter_append, List.length_append]

theorem missingItem_name (kind : Kind) (params : List Bytes) (p : Bytes × Extra) :
    Spec.name (missingItem kind params p) = some p.1 ∧ Spec.conditions (missingItem kind params p) = [] := by
  obtain ⟨n, e⟩ := p
  cases e <;> exact ⟨rfl, rfl⟩

theorem compiled_missing (env : Nat → Bool) (n : Bytes) (kind : Kind) (params : List Bytes) (m : List (Bytes × Extra)) :
    (Spec.compiled env n (m.map (missingItem kind params))).length = isMissing n m := by
  induction m with
  | nil => rfl
  | cons p m ih =>
    obtain ⟨h1, h2⟩ := missingItem_name kind params p
    rw [List.map_cons, compiled_cons, ih, h1, h2]
    unfold isMissing
    rw [List.countP_cons]
    simp

theorem compiled_pending (env : Nat → Bool) (n : Bytes) (kind : Kind) (acc : List (Bytes × Cfg × Extra)) :
    (Spec.compiled env n (acc.map fun p => Item.type p.1 [.not p.2.1] (neverType kind p.2.2))).length = isPending env n acc := by
  induction acc with
  | nil => rfl
  | cons p m ih =>
    rw [List.map_cons, compiled_cons, ih]
    unfold isPending
    rw [List.countP_cons]
    simp [Spec.name, Spec.conditions, Cfg.holds]

end Musli.Types
