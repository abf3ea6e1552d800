import Verif.Model.Zero.Search
/-!
# Binary search
-/
namespace Musli.Zero

section
variable {α : Type} {load : Nat → Except ZErr α} {f : α → Except ZErr Ordering}

/-- The result of comparing the element at an index. -/
def cmpAt (load : Nat → Except ZErr α) (f : α → Except ZErr Ordering) (i : Nat) : Except ZErr Ordering := do
  let a ← load i
  f a

theorem searchLoop_step (fuel size left right : Nat) : searchLoop load f (fuel + 1) size left right =
    if left < right then
      match cmpAt load f (left + size / 2) with
      | .error e => .error e
      | .ok .lt => searchLoop load f fuel (right - (left + size / 2 + 1)) (left + size / 2 + 1) right
      | .ok .gt => searchLoop load f fuel (left + size / 2 - left) left (left + size / 2)
      | .ok .eq => .ok (.found (left + size / 2))
    else .ok (.missing left) := by
  rw [searchLoop]
  split
  · dsimp only
    unfold cmpAt
    cases hl : load (left + size / 2) with
    | error e => simp only [bind, Except.bind]
    | ok a =>
      cases hf : f a with
      | error e => simp only [bind, Except.bind, hf]
      | ok c => simp only [bind, Except.bind, hf]; cases c <;> rfl
  · rfl

/-- What the loop returns, if the slice is sorted. -/
theorem searchLoop_spec {ord : Nat → Ordering} {n : Nat} :
    ∀ (fuel left right : Nat), right ≤ n → left ≤ right → right - left < fuel →
    (∀ i, left ≤ i → i < right → cmpAt load f i = .ok (ord i)) →
    (∀ i, i < left → ord i = .lt) → (∀ i, right ≤ i → i < n → ord i = .gt) →
    (∀ i j, i ≤ j → j < n → (ord j = .lt → ord i = .lt) ∧ (ord i = .gt → ord j = .gt)) →
    ∃ r, searchLoop load f fuel (right - left) left right = .ok r ∧
      match r with
      | .found i => i < n ∧ ord i = .eq
      | .missing i => i ≤ n ∧ (∀ j, j < i → ord j = .lt) ∧ (∀ j, i ≤ j → j < n → ord j = .gt) := by
  intro fuel
  induction fuel with
  | zero => intro left right _ _ h; omega
  | succ fuel ih =>
    intro left right hn hlr hfuel hc hl hr hs
    rw [searchLoop_step]
    by_cases h : left < right
    · rw [if_pos h, hc _ (by omega) (by omega)]
      have hs' := hs
      cases ho : ord (left + (right - left) / 2) with
      | eq => exact ⟨_, rfl, by omega, ho⟩
      | lt =>
        exact ih _ _ hn (by omega) (by omega) (fun i h1 h2 => hc i (by omega) h2)
          (fun i hi => (hs i (left + (right - left) / 2) (by omega) (by omega)).1 ho) hr hs'
      | gt =>
        refine ih _ _ (by omega) (by omega) (by omega) (fun i h1 h2 => hc i h1 (by omega)) hl
          (fun i hi hin => (hs (left + (right - left) / 2) i hi hin).2 ho) hs'
    · rw [if_neg h]
      have : left = right := by omega
      subst this
      exact ⟨_, rfl, by omega, hl, hr⟩

/-- Without sortedness: only elements of the slice are looked at, and the result is an index. -/
theorem searchLoop_bounds {n : Nat} :
    ∀ (fuel left right : Nat), right ≤ n → left ≤ right → right - left < fuel →
    match searchLoop load f fuel (right - left) left right with
    | .ok (.found i) => i < n ∧ cmpAt load f i = .ok .eq
    | .ok (.missing i) => i ≤ n
    | .error e => ∃ i, i < n ∧ cmpAt load f i = .error e := by
  intro fuel
  induction fuel with
  | zero => intro left right _ _ h; omega
  | succ fuel ih =>
    intro left right hn hlr hfuel
    rw [searchLoop_step]
    by_cases h : left < right
    · rw [if_pos h]
      cases ho : cmpAt load f (left + (right - left) / 2) with
      | error e => exact ⟨_, by omega, ho⟩
      | ok c =>
        cases c with
        | eq => exact ⟨by omega, ho⟩
        | lt => exact ih _ _ hn (by omega) (by omega)
        | gt => exact ih _ _ (by omega) (by omega) (by omega)
    · rw [if_neg h]
      show left ≤ n
      omega

/-- Also without sortedness: before where the element is missing, there is a smaller one. -/
theorem searchLoop_pred : ∀ (fuel size left right : Nat),
    (0 < left → cmpAt load f (left - 1) = .ok .lt) →
    ∀ i, searchLoop load f fuel size left right = .ok (.missing i) → 0 < i → cmpAt load f (i - 1) = .ok .lt := by
  intro fuel
  induction fuel with
  | zero => intro size left right _ i h; simp [searchLoop] at h
  | succ fuel ih =>
    intro size left right hl i h hi
    rw [searchLoop_step] at h
    by_cases hlr : left < right
    · rw [if_pos hlr] at h
      cases ho : cmpAt load f (left + size / 2) with
      | error e => rw [ho] at h; cases h
      | ok c =>
        rw [ho] at h
        cases c with
        | eq => cases h
        | lt => exact ih _ _ _ (fun _ => by simpa using ho) i h hi
        | gt => exact ih _ _ _ hl i h hi
    · rw [if_neg hlr] at h
      cases h
      exact hl hi

end
end Musli.Zero
