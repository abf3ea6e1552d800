import Verif.Props.SwapAttr
import Verif.Model.Zero.SwapAttrFixed
/-!
# C131 with a correction

An enum is accepted although its variants are not paired (`C131_violated_cycle`). With a check of the names exactly the enums which are made
of pairs are accepted.
-/
namespace Musli.Props
open Musli Musli.Zero

/-- The variants are paired: each is swapped back by its partner. -/
def Pairs (ps : List Nat) : Prop := ∀ (i p : Nat), ps[i]? = some p → ps[p]? = some i

theorem ident_inj {vs : List VarDecl} (hnd : (vs.map (·.ident)).Nodup) {i j : Nat} {v w : VarDecl} (hi : vs[i]? = some v)
    (hj : vs[j]? = some w) (h : v.ident = w.ident) : i = j := by
  have hi' : i < (vs.map (·.ident)).length := by rw [List.length_map]; exact (List.getElem?_eq_some_iff.1 hi).1
  refine (List.getElem?_inj hi' hnd).1 ?_
  rw [List.getElem?_map, List.getElem?_map, hi, hj]
  exact congrArg some h

/-- The check by places. -/
theorem mutualNames_iff (l : List (Bytes × Option Bytes)) : mutualNames l = true ↔
    ∀ x ∈ l, ∀ y ∈ l, x.2 = some y.1 → y.2 = none ∨ y.2 = some x.1 := by
  unfold mutualNames
  rw [List.all_eq_true]
  refine forall_congr' fun x => imp_congr_right fun _ => ?_
  obtain ⟨a, n⟩ := x
  cases n with
  | none => simp
  | some t =>
    simp only [List.all_eq_true]
    refine forall_congr' fun y => imp_congr_right fun _ => ?_
    obtain ⟨b, m⟩ := y
    simp only [Bool.or_eq_true, bne_iff_ne, ne_eq, Option.isNone_iff_eq_none, beq_iff_eq, Option.some.injEq, or_assoc]
    constructor
    · rintro (h | h) e
      · exact absurd e.symm h
      · exact h
    · intro h
      by_cases e : b = t
      · exact .inr (h e.symm)
      · exact .inl e

theorem mem_pairs {vs : List VarDecl} {names : List (Option Bytes)} (x : Bytes × Option Bytes) :
    x ∈ (vs.map (·.ident)).zip names ↔ ∃ (i : Nat) (v : VarDecl), vs[i]? = some v ∧ names[i]? = some x.2 ∧ v.ident = x.1 := by
  rw [List.mem_iff_getElem?]
  constructor
  · rintro ⟨i, hi⟩
    rw [List.getElem?_zip_eq_some, List.getElem?_map, Option.map_eq_some_iff] at hi
    obtain ⟨⟨v, h1, h2⟩, h3⟩ := hi
    exact ⟨i, v, h1, h3, h2⟩
  · rintro ⟨i, v, h1, h2, h3⟩
    refine ⟨i, ?_⟩
    rw [List.getElem?_zip_eq_some, List.getElem?_map, Option.map_eq_some_iff]
    exact ⟨⟨v, h1, h3⟩, h2⟩

theorem mutual_iff_pairs {legal : Bytes → Bool} {vs : List VarDecl} {names : List (Option Bytes)} {ps : List Nat}
    (hnd : (vs.map (·.ident)).Nodup) (h : Zero.Spec.Accepted legal vs names ps) :
    mutualNames ((vs.map (·.ident)).zip names) = true ↔ Pairs ps := by
  have get : ∀ {i : Nat}, i < vs.length → ∃ v n p, vs[i]? = some v ∧ names[i]? = some n ∧ ps[i]? = some p := fun {i} hi =>
    ⟨_, _, _, List.getElem?_eq_getElem hi, List.getElem?_eq_getElem (by rw [h.names_length]; exact hi),
      List.getElem?_eq_getElem (by rw [h.length]; exact hi)⟩
  have lt {i : Nat} {v : VarDecl} (hv : vs[i]? = some v) : i < vs.length := (List.getElem?_eq_some_iff.1 hv).1
  rw [mutualNames_iff]
  constructor
  · intro hm i p hp
    obtain ⟨v, n, p', hv, hn, hp'⟩ := get (i := i) (by rw [← h.length]; exact (List.getElem?_eq_some_iff.1 hp).1)
    obtain rfl : p' = p := Option.some.inj (hp'.symm.trans hp)
    cases n with
    | none =>
      have h1 := h.is_named i p' v hv hn hp
      obtain ⟨w, m, q, hw, -, hq⟩ := get (i := p') (by rw [← h.names_length]; exact (List.getElem?_eq_some_iff.1 h1).1)
      obtain ⟨u, hu, he⟩ := h.names_it p' q v.ident h1 hq
      rw [hq, ident_inj hnd hu hv he]
    | some t =>
      obtain ⟨w, hw, he⟩ := h.names_it i p' t hn hp
      obtain ⟨-, m, q, -, hm', hq⟩ := get (i := p') (lt hw)
      have h2 := hm (v.ident, some t) ((mem_pairs _).2 ⟨i, v, hv, hn, rfl⟩) (w.ident, m) ((mem_pairs _).2 ⟨p', w, hw, hm', rfl⟩)
        (by rw [he])
      rcases h2 with h2 | h2
      · obtain rfl : m = none := h2
        have h3 := h.is_named p' q w hw hm' hq
        rw [he] at h3
        rw [hq, h.once q i t h3 hn]
      · obtain rfl : m = some v.ident := h2
        obtain ⟨u, hu, he'⟩ := h.names_it p' q v.ident hm' hq
        rw [hq, ident_inj hnd hu hv he']
  · rintro hpairs ⟨a, n⟩ hx ⟨b, m⟩ hy e
    obtain ⟨i, v, hv, hn, rfl⟩ := (mem_pairs _).1 hx
    obtain ⟨j, w, hw, hm, rfl⟩ := (mem_pairs _).1 hy
    dsimp only at e hn hm ⊢
    subst e
    obtain ⟨-, -, p, -, -, hp⟩ := get (lt hv)
    obtain ⟨u, hu, he⟩ := h.names_it i p w.ident hn hp
    obtain rfl := ident_inj hnd hu hw he
    cases m with
    | none => exact .inl rfl
    | some t =>
      obtain ⟨x, hx', he'⟩ := h.names_it p i t hm (hpairs i p hp)
      rw [hv] at hx'
      cases hx'
      exact .inr (by rw [he'])

/-- **C131**, with the correction: accepted are exactly the enums which were accepted and which are made of pairs, and they are paired in
the same way. -/
theorem C131_corrected (legal : Bytes → Bool) (vs : List VarDecl) (ps : List Nat) (hne : ∀ v ∈ vs, v.ident ≠ [])
    (hnd : (vs.map (·.ident)).Nodup) :
    pairVariantsC legal vs = .ok ps ↔ (∃ names, Zero.Spec.Accepted legal vs names ps) ∧ Pairs ps := by
  constructor
  · intro hc
    unfold pairVariantsC at hc
    cases hs : swapNames legal true vs with
    | error e => rw [hs] at hc; cases hc
    | ok names =>
      rw [hs] at hc
      dsimp only at hc
      by_cases hm : mutualNames ((vs.map (·.ident)).zip names) = true
      · rw [if_pos hm] at hc
        obtain ⟨names', hs', ha⟩ := (pairVariants_iff legal vs ps hne hnd).1 hc
        rw [hs] at hs'
        cases hs'
        exact ⟨⟨names, ha⟩, (mutual_iff_pairs hnd ha).1 hm⟩
      · rw [if_neg hm] at hc; cases hc
  · rintro ⟨ha, hp⟩
    obtain ⟨names, hs, ha'⟩ := (pairVariants_iff legal vs ps hne hnd).1 ((C131_accepts legal vs ps hne hnd).2 ha)
    unfold pairVariantsC
    rw [hs]
    dsimp only
    rw [if_pos ((mutual_iff_pairs hnd ha').2 hp)]
    exact (C131_accepts legal vs ps hne hnd).2 ha

/-- **C131**, the part which is false of the code, with the correction: whenever an enum is accepted, swapping twice is the same variant. -/
theorem C131_corrected_pairs (legal : Bytes → Bool) (vs : List VarDecl) (ps : List Nat) (hne : ∀ v ∈ vs, v.ident ≠ [])
    (hnd : (vs.map (·.ident)).Nodup) (h : pairVariantsC legal vs = .ok ps) (i : Nat) (hi : i < vs.length) :
    ∃ p, ps[i]? = some p ∧ ps[p]? = some i := by
  obtain ⟨⟨names, ha⟩, hp⟩ := (C131_corrected legal vs ps hne hnd).1 h
  have hl : i < ps.length := by rw [ha.length]; exact hi
  have e : ps[i]? = some ps[i] := List.getElem?_eq_getElem hl
  exact ⟨_, e, hp i _ e⟩

/-! ### Cases -/

example : pairVariantsC notEmpty sampleVariants = .ok [1, 0, 3, 2, 4, 5] ∧ pairVariantsC notEmpty cycle = .error () ∧
    pairVariants notEmpty true cycle = .ok [1, 2, 3, 0] := by decide +kernel

/-- Both variants of a pair can name each other. -/
example : pairVariantsC notEmpty [⟨utf8% "A", [utf8% "B"]⟩, ⟨utf8% "B", [utf8% "A"]⟩] = .ok [1, 0] := by decide +kernel

end Musli.Props
