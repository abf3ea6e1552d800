import Verif.Proofs.Zero.Search
/-!
# C43: binary search in a zero-copy slice
-/
namespace Musli.Zero

/-- The elements which compare as `Less` come first, those which compare as `Greater` come last. -/
def SortedBy {α : Type} (f : α → Ordering) (l : List α) : Prop :=
  ∃ a b c, l = a ++ (b ++ c) ∧ (∀ x ∈ a, f x = .lt) ∧ (∀ x ∈ b, f x = .eq) ∧ (∀ x ∈ c, f x = .gt)

theorem loadFrom_lt {α : Type} {l : List α} {i : Nat} (h : i < l.length) : loadFrom l i = .ok l[i] := by
  unfold loadFrom
  rw [List.getElem?_eq_getElem h]

theorem sortedBy_mono {α : Type} {f : α → Ordering} {l : List α} (h : SortedBy f l) (i j : Nat) (hij : i ≤ j)
    (hj : j < l.length) :
    (f l[j] = .lt → f (l[i]'(by omega)) = .lt) ∧ (f (l[i]'(by omega)) = .gt → f l[j] = .gt) := by
  obtain ⟨a, b, c, rfl, ha, hb, hc⟩ := h
  have key : ∀ k (hk : k < (a ++ (b ++ c)).length), f ((a ++ (b ++ c))[k]) =
      if k < a.length then .lt else if k < a.length + b.length then .eq else .gt := by
    intro k hk
    by_cases h1 : k < a.length
    · rw [if_pos h1, List.getElem_append_left h1]
      exact ha _ (List.getElem_mem _)
    · rw [if_neg h1, List.getElem_append_right (by omega)]
      by_cases h2 : k < a.length + b.length
      · rw [if_pos h2, List.getElem_append_left (by omega)]
        exact hb _ (List.getElem_mem _)
      · rw [if_neg h2, List.getElem_append_right (by omega)]
        exact hc _ (List.getElem_mem _)
  rw [key i (by omega), key j hj]
  constructor
  · intro h
    split at h
    · rw [if_pos (by omega)]
    · split at h <;> cases h
  · intro h
    split at h
    · cases h
    · split at h
      · cases h
      · rw [if_neg (by omega), if_neg (by omega)]

/-- **C43**: on a sorted slice, of any length, `binary_search_by` finds an element which compares as
`Equal` if there is one; otherwise it returns the index where all smaller elements are before, and
all larger ones after. -/
theorem C43_binary_search_by {α : Type} (f : α → Ordering) (l : List α) (h : SortedBy f l) :
    ∃ r, binarySearchBy l.length (loadFrom l) (fun v => .ok (f v)) = .ok r ∧
      match r with
      | .found i => ∃ hi : i < l.length, f l[i] = .eq
      | .missing i => i ≤ l.length ∧ (∀ x ∈ l.take i, f x = .lt) ∧ (∀ x ∈ l.drop i, f x = .gt) := by
  have := searchLoop_spec (load := loadFrom l) (f := fun v => .ok (f v))
    (ord := fun i => if hi : i < l.length then f l[i] else .gt) (n := l.length) (l.length + 1) 0 l.length
    (by omega) (by omega) (by omega)
    (fun i _ hi => by
      unfold cmpAt
      rw [loadFrom_lt hi]
      simp [hi]; rfl)
    (fun i hi => by omega) (fun i hi hn => by omega)
    (fun i j hij hj => by
      rw [dif_pos hj, dif_pos (by omega)]
      exact sortedBy_mono h i j hij hj)
  obtain ⟨r, h1, h2⟩ := this
  refine ⟨r, h1, ?_⟩
  cases r with
  | found i =>
    obtain ⟨hi, h3⟩ := h2
    rw [dif_pos hi] at h3
    exact ⟨hi, h3⟩
  | missing i =>
    obtain ⟨hi, h3, h4⟩ := h2
    refine ⟨hi, fun x hx => ?_, fun x hx => ?_⟩
    · obtain ⟨j, hj, rfl⟩ := List.mem_iff_getElem.1 hx
      rw [List.length_take] at hj
      have := h3 j (by omega)
      rw [dif_pos (by omega)] at this
      rw [List.getElem_take]
      exact this
    · obtain ⟨j, hj, rfl⟩ := List.mem_iff_getElem.1 hx
      rw [List.length_drop] at hj
      have := h4 (i + j) (by omega) (by omega)
      rw [dif_pos (by omega)] at this
      rw [List.getElem_drop]
      exact this

/-- **C43** for `binary_search`: with the order of the elements. -/
theorem C43_binary_search {α : Type} [Ord α] [Std.TransOrd α] (l : List α) (x : α)
    (h : l.Pairwise (fun a b => compare a b ≠ .gt)) :
    ∃ r, binarySearch l x = .ok r ∧
      match r with
      | .found i => ∃ hi : i < l.length, compare l[i] x = .eq
      | .missing i => i ≤ l.length ∧ (∀ y ∈ l.take i, compare y x = .lt) ∧ (∀ y ∈ l.drop i, compare y x = .gt) := by
  apply C43_binary_search_by (fun v => compare v x) l
  induction l with
  | nil => exact ⟨[], [], [], rfl, by simp, by simp, by simp⟩
  | cons y l ih =>
    rw [List.pairwise_cons] at h
    obtain ⟨a, b, c, rfl, ha, hb, hc⟩ := ih h.2
    cases hy : compare y x with
    | lt =>
      refine ⟨y :: a, b, c, rfl, ?_, hb, hc⟩
      intro z hz
      rcases List.mem_cons.1 hz with rfl | hz
      · exact hy
      · exact ha z hz
    | eq =>
      have hno : a = [] := by
        cases a with
        | nil => rfl
        | cons z a =>
          exfalso
          have h1 := h.1 z (by simp)
          have h2 := ha z (by simp)
          have h3 : compare y z ≠ .gt := h1
          have h4 : compare y x = .lt := Std.TransCmp.lt_of_isLE_of_lt (Ordering.ne_gt_iff_isLE.1 h3) h2
          rw [hy] at h4
          cases h4
      subst hno
      refine ⟨[], y :: b, c, rfl, by simp, ?_, hc⟩
      intro z hz
      rcases List.mem_cons.1 hz with rfl | hz
      · exact hy
      · exact hb z hz
    | gt =>
      have hge : ∀ z ∈ a ++ (b ++ c), compare z x = .gt := by
        intro z hz
        have h1 : compare y z ≠ .gt := h.1 z hz
        have h2 : compare x y = .lt := Std.OrientedCmp.lt_of_gt hy
        have h3 : compare x z = .lt := Std.TransCmp.lt_of_lt_of_isLE h2 (Ordering.ne_gt_iff_isLE.1 h1)
        exact Std.OrientedCmp.gt_of_lt h3
      refine ⟨[], [], y :: (a ++ (b ++ c)), rfl, by simp, by simp, ?_⟩
      intro z hz
      rcases List.mem_cons.1 hz with rfl | hz
      · exact hy
      · exact hge z hz

/-- **C43** for slices which are not sorted, and for comparators and loads which fail: only elements
of the slice are looked at, an error is one of the comparator (or of a load), and an element which is
found compares as `Equal`. -/
theorem C43_no_other_error {α : Type} (load : Nat → Except ZErr α) (f : α → Except ZErr Ordering) (n : Nat) :
    match binarySearchBy n load f with
    | .ok (.found i) => i < n ∧ (load i >>= f) = .ok .eq
    | .ok (.missing i) => i ≤ n
    | .error e => ∃ i, i < n ∧ (load i >>= f) = .error e :=
  searchLoop_bounds (load := load) (f := f) (n + 1) 0 n (by omega) (by omega) (by omega)

/-- A slice which meets the premise; the element looked for is there several times. -/
example : binarySearch [0, 1, 1, 1, 1, 2, 3, 5, 8, 13, 21, 34, 55] 13 = .ok (.found 9) ∧
    binarySearch [0, 1, 1, 1, 1, 2, 3, 5, 8, 13, 21, 34, 55] 4 = .ok (.missing 7) ∧
    [0, 1, 1, 1, 1, 2, 3, 5, 8, 13, 21, 34, 55].Pairwise (fun a b : Nat => compare a b ≠ .gt) := by
  decide

end Musli.Zero
