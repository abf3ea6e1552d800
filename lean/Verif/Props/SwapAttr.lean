import Verif.Proofs.Zero.SwapAttr
import Verif.Proofs.Zero.Endian
import Verif.Props.Samples
/-!
# C131
-/
namespace Musli.Props
open Musli Musli.Zero

/-- The enums which are accepted with `#[zero_copy(swap_bytes)]`, and how their variants are paired. -/
theorem C131_accepts (legal : Bytes → Bool) (vs : List VarDecl) (ps : List Nat) (hne : ∀ v ∈ vs, v.ident ≠ [])
    (hnd : (vs.map (·.ident)).Nodup) :
    pairVariants legal true vs = .ok ps ↔ ∃ names, Zero.Spec.Accepted legal vs names ps := by
  rw [pairVariants_iff legal vs ps hne hnd]
  constructor
  · intro ⟨names, _, h⟩; exact ⟨names, h⟩
  · intro ⟨names, h⟩
    refine ⟨names, ?_, h⟩
    rw [swapNames_iff]
    exact ⟨h.names_length, fun i v n hv hn =>
      (swapName_iff legal v (hne v (List.mem_of_getElem? hv)) n).2 (h.named i v n hv hn)⟩

/-- There is one pairing. -/
theorem C131_names_unique (legal : Bytes → Bool) (vs : List VarDecl) (ps ps' : List Nat) (names names' : List (Option Bytes))
    (hne : ∀ v ∈ vs, v.ident ≠ []) (hnd : (vs.map (·.ident)).Nodup)
    (h : Zero.Spec.Accepted legal vs names ps) (h' : Zero.Spec.Accepted legal vs names' ps') : names = names' ∧ ps = ps' := by
  have e := (C131_accepts legal vs ps hne hnd).2 ⟨names, h⟩
  rw [(C131_accepts legal vs ps' hne hnd).2 ⟨names', h'⟩] at e
  refine ⟨?_, by cases e; rfl⟩
  have hl : ∀ {names ps}, Zero.Spec.Accepted legal vs names ps → swapNames legal true vs = .ok names := by
    intro names ps h
    rw [swapNames_iff]
    exact ⟨h.names_length, fun i v n hv hn =>
      (swapName_iff legal v (hne v (List.mem_of_getElem? hv)) n).2 (h.named i v n hv hn)⟩
  have := (hl h).symm.trans (hl h')
  cases this; rfl

/-- The pairing is the one of `swap_bytes` (C58), and what it assumes of it, that a variant which names none is named, holds. -/
theorem C131_swaps (legal : Bytes → Bool) (vs : List VarDecl) (ps : List Nat) (names : List (Option Bytes))
    (hnd : (vs.map (·.ident)).Nodup) (h : Zero.Spec.Accepted legal vs names ps) (i : Nat) (hi : i < vs.length) :
    ps[i]? = some (target (swapIndices (vs.map (·.ident)) names) i) ∧
    ((swapIndices (vs.map (·.ident)) names)[i]? = some none →
      ∃ k : Nat, (swapIndices (vs.map (·.ident)) names)[k]? = some (some i)) :=
  accepted_target hnd h i hi

/-- When `CAN_SWAP_BYTES` is true, the variant which a variant is paired with has the discriminant with its bytes swapped, and is paired
with it in turn. -/
theorem C131_pairs_partial (legal : Bytes → Bool) (vs : List VarDecl) (ps : List Nat) (names : List (Option Bytes)) (tagSize : Nat)
    (discs : List Nat) (hnd : (vs.map (·.ident)).Nodup) (h : Zero.Spec.Accepted legal vs names ps)
    (hl : discs.length = vs.length) (hd : discs.Nodup) (hb : ∀ d ∈ discs, d < 256 ^ tagSize)
    (hc : conditions tagSize discs (swapIndices (vs.map (·.ident)) names) = true) (i d : Nat) (hi : discs[i]? = some d) :
    ∃ p, ps[i]? = some p ∧ discs[p]? = some (swapNum tagSize d) ∧ ps[p]? = some i := by
  have hlt : i < vs.length := by rw [← hl]; exact (List.getElem?_eq_some_iff.1 hi).1
  generalize hsw : swapIndices (vs.map (·.ident)) names = swaps at hc
  have hsl : swaps.length = vs.length := by rw [← hsw, swapIndices, List.length_map, h.names_length]
  have ht := fun j hj => accepted_target hnd h j hj
  rw [hsw] at ht
  obtain ⟨hD, hS⟩ := bare_lists (discs.zip swaps)
  rw [List.map_fst_zip (by omega)] at hD
  rw [List.map_snd_zip (by omega)] at hS
  have hget : ∀ j e, (bare (discs.zip swaps)).get j = some (e, SFields.nil) ↔ discs[j]? = some e := by
    intro j e
    rw [bare_get]
    constructor
    · intro h
      rw [Option.map_eq_some_iff] at h
      obtain ⟨⟨a, b⟩, h1, h2⟩ := h
      rw [List.getElem?_zip_eq_some] at h1
      cases h2; exact h1.1
    · intro h
      have hj : j < swaps.length := by rw [hsl, ← hl]; exact (List.getElem?_eq_some_iff.1 h).1
      rw [List.getElem?_zip_eq_some (z := (e, swaps[j])) |>.2 ⟨h, List.getElem?_eq_getElem hj⟩]; rfl
  have hps : ∀ (j q : Nat), j < vs.length → ps[j]? = some q → q < vs.length := by
    intro j q hj hq
    cases hn : names[j]? with
    | none => rw [List.getElem?_eq_none_iff, h.names_length] at hn; omega
    | some n => cases n with
      | none =>
        have := h.is_named j q vs[j] (List.getElem?_eq_getElem hj) hn hq
        rw [← h.names_length]; exact (List.getElem?_eq_some_iff.1 this).1
      | some m =>
        obtain ⟨w, hw, _⟩ := h.names_it j q m hn hq
        exact (List.getElem?_eq_some_iff.1 hw).1
  have hpaired : (bare (discs.zip swaps)).Paired tagSize := by
    refine ⟨by rw [hD]; exact hd, by rw [hD]; exact hb, ?_, ?_⟩
    · intro j hj
      rw [hS] at hj ⊢
      exact (ht j (by rw [← hsl]; exact (List.getElem?_eq_some_iff.1 hj).1)).2 hj
    · intro j e fs hg
      have hfs : fs = .nil := by
        rw [bare_get, Option.map_eq_some_iff] at hg
        obtain ⟨_, _, h2⟩ := hg
        cases h2; rfl
      subst hfs
      rw [hget] at hg
      rw [hS]
      have hj : j < vs.length := by rw [← hl]; exact (List.getElem?_eq_some_iff.1 hg).1
      have := hps j _ hj (ht j hj).1
      exact ⟨discs[target swaps j]'(by omega), (hget _ _).2 (List.getElem?_eq_getElem _)⟩
  obtain ⟨-, h2, h3⟩ := target_spec (i := i) (d := d) (fs := .nil) hpaired (by rw [hD, hS]; exact hc) ((hget i d).2 hi)
  rw [hS] at h2 h3
  have h4 := (hget _ _).1 h2
  refine ⟨target swaps i, (ht i hlt).1, h4, ?_⟩
  rw [(ht _ (by rw [← hl]; exact (List.getElem?_eq_some_iff.1 h4).1)).1, h3]

/-- Without `#[zero_copy(swap_bytes)]` variants with the attribute are not accepted, and bytes are swapped within a variant. -/
theorem C131_without (legal : Bytes → Bool) (vs : List VarDecl) :
    pairVariants legal false vs = if vs.all (·.attrs.isEmpty) then .ok (List.range vs.length) else .error () := by
  have hnone : ∀ vs : List VarDecl, vs.all (·.attrs.isEmpty) = true →
      swapNames legal false vs = .ok (List.replicate vs.length none) := by
    intro vs
    induction vs with
    | nil => intro _; rfl
    | cons v vs ih =>
      intro h
      simp only [List.all_cons, Bool.and_eq_true, List.isEmpty_iff] at h
      have e : swapName legal false v = .ok none := by unfold swapName; rw [h.1]; rfl
      unfold swapNames
      rw [e, ih h.2]
      simp [List.replicate_succ]
  have htwice : ∀ n, namedTwice (List.replicate n none) = false := by
    intro n; induction n with
    | zero => rfl
    | succ n ih => simpa [List.replicate_succ, namedTwice] using ih
  have hsome : ∀ (vs : List VarDecl) names, vs.all (·.attrs.isEmpty) = false →
      swapNames legal false vs = .ok names → names.any Option.isSome = true := by
    intro vs
    induction vs with
    | nil => intro _ h; simp at h
    | cons v vs ih =>
      intro names h hn
      unfold swapNames at hn
      split at hn
      · cases hn
      · next n h1 =>
        split at hn
        · cases hn
        · next ns h2 =>
          cases hn
          rw [List.any_cons]
          cases hv : v.attrs with
          | nil =>
            simp only [List.all_cons, hv, List.isEmpty_nil, Bool.true_and] at h
            rw [ih ns h h2, Bool.or_true]
          | cons a r =>
            unfold swapName at h1
            rw [hv] at h1
            cases r with
            | nil => cases h1; rfl
            | cons => cases h1
  unfold pairVariants
  by_cases h : vs.all (·.attrs.isEmpty) = true
  · rw [if_neg (by simp), hnone vs h, if_pos h]
    simp [htwice]
  · rw [if_neg (by simp), if_neg h]
    cases hn : swapNames legal false vs with
    | error e => rfl
    | ok names =>
      simp only
      split
      · rfl
      · rw [if_neg (by simp), if_pos (hsome vs names (by simpa using h) hn)]

/-! ### Cases -/

/-- `enum E { A, _A, #[zero_copy(swap = C)] B, C, #[zero_copy(swap = D)] D, #[zero_copy(swap = F_)] F_ }` -/
abbrev sampleVariants : List VarDecl :=
  [⟨utf8% "A", []⟩, ⟨utf8% "_A", []⟩, ⟨utf8% "B", [utf8% "C"]⟩, ⟨utf8% "C", []⟩, ⟨utf8% "D", [utf8% "D"]⟩, ⟨utf8% "F_", [utf8% "F_"]⟩]

abbrev notEmpty (s : Bytes) : Bool := !s.isEmpty

example : pairVariants notEmpty true sampleVariants = .ok [1, 0, 3, 2, 4, 5] ∧ (sampleVariants.map (·.ident)).Nodup ∧
    (∀ v ∈ sampleVariants, v.ident ≠ []) ∧
    conditions 2 [0x1, 0x100, 0x2, 0x200, 0x303, 0] (swapIndices (sampleVariants.map (·.ident))
      [none, some (utf8% "A"), some (utf8% "C"), none, some (utf8% "D"), some (utf8% "F_")]) = true := by decide +kernel

example : pairVariants notEmpty false [⟨utf8% "A", []⟩, ⟨utf8% "B_", []⟩] = .ok [0, 1] ∧
    pairVariants notEmpty false sampleVariants = .error () := by decide +kernel

/-- Not an even number of variants, though each is its own. -/
theorem C131_violated_odd : pairVariants notEmpty true [⟨utf8% "Zero", [utf8% "Zero"]⟩] = .error () := by decide +kernel

/-- `enum E { #[zero_copy(swap = B)] A, #[zero_copy(swap = C)] B, #[zero_copy(swap = D)] C, #[zero_copy(swap = A)] D }` -/
abbrev cycle : List VarDecl :=
  [⟨utf8% "A", [utf8% "B"]⟩, ⟨utf8% "B", [utf8% "C"]⟩, ⟨utf8% "C", [utf8% "D"]⟩, ⟨utf8% "D", [utf8% "A"]⟩]

/-- These variants are not paired: swapping twice is another variant. The macro does not report an error; `CAN_SWAP_BYTES` is false, whatever
the discriminants are, but `swap_bytes` can be called nonetheless. -/
theorem C131_violated_cycle : ∃ ps : List Nat, pairVariants notEmpty true cycle = .ok ps ∧ (ps[0]?.bind fun p => ps[p]?) = some 2 ∧
    ∀ tagSize discs, discs.length = 4 → discs.Nodup → (∀ d ∈ discs, d < 256 ^ tagSize) →
      conditions tagSize discs (swapIndices (cycle.map (·.ident)) (cycle.map fun v => v.attrs.head?)) = false := by
  refine ⟨[1, 2, 3, 0], by decide +kernel, rfl, ?_⟩
  intro tagSize discs hl hnd hb
  obtain ⟨names, h⟩ := (C131_accepts notEmpty cycle [1, 2, 3, 0] (by decide +kernel) (by decide +kernel)).1 (by decide +kernel)
  have hn : names = cycle.map fun v => v.attrs.head? := by
    have h1 := (swapNames_iff notEmpty cycle names).2 ⟨h.names_length, fun i v n hv hn =>
      (swapName_iff notEmpty v (by
        have : ∀ v ∈ cycle, v.ident ≠ [] := by decide +kernel
        exact this v (List.mem_of_getElem? hv)) n).2 (h.named i v n hv hn)⟩
    have h2 : swapNames notEmpty true cycle = .ok (cycle.map fun v => v.attrs.head?) := by decide +kernel
    rw [h2] at h1; cases h1; rfl
  cases hc : conditions tagSize discs (swapIndices (cycle.map (·.ident)) (cycle.map fun v => v.attrs.head?)) with
  | false => rfl
  | true =>
    obtain ⟨p, h1, _, h3⟩ := C131_pairs_partial notEmpty cycle [1, 2, 3, 0] names tagSize discs (by decide +kernel) h (by rw [hl]; rfl)
      hnd hb (by rw [hn]; exact hc) 0 (discs[0]) (List.getElem?_eq_getElem (by omega))
    cases h1
    cases h3

end Musli.Props
