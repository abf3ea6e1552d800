import Verif.Props.Json
import Verif.Proofs.Json.Range
import Verif.Model.Json.ArrayFixed
/-!
# C31 with a correction

An element too many is stored out of bounds (`C31_more_panics`). If that were an error, then C31 would hold.
-/
set_option linter.unusedSectionVars false
namespace Musli.Json
open Musli Spec

theorem arrayLoopC_any (full : Bool) (n : Nat) (s : Bytes) :
    ∀ (l acc : Bytes), acc.length ≤ n →
    ∀ (first : Bool) (e : Bytes), After first (l.map (fun b => NatText b.toNat)) e →
    ∀ fuel, l.length < fuel →
      (acc.length + l.length ≤ n → arrayLoopC full n fuel first acc acc.length (e ++ 0x5D#8 :: s) =
        .ok ((acc ++ l, acc.length + l.length), 0x5D#8 :: s)) ∧
      (n < acc.length + l.length → ∃ r,
        arrayLoopC full n fuel first acc acc.length (e ++ 0x5D#8 :: s) = .error (.length, r)) := by
  intro l
  induction l with
  | nil =>
    intro acc hn first e he fuel hf
    obtain ⟨f, rfl⟩ : ∃ f, fuel = f + 1 := ⟨fuel - 1, by simp at hf; omega⟩
    refine ⟨fun _ => ?_, fun h => absurd h (by simp; omega)⟩
    unfold arrayLoopC
    rw [P.bind_apply, nextValue_ws (after_nil he), nextValue_close]
    show Except.ok _ = _
    simp
  | cons a l ih =>
    intro acc hn first e he fuel hf
    obtain ⟨f, rfl⟩ : ∃ f, fuel = f + 1 := ⟨fuel - 1, by simp at hf; omega⟩
    obtain ⟨x, r, hx, hr, h1, _⟩ := after_cons he
    unfold arrayLoopC
    rw [P.bind_ok (h1 (natText_isValue hx) _)]
    simp only [List.length_cons] at hf
    rw [List.length_cons]
    rw [if_pos rfl]
    by_cases hlt : acc.length < n
    · rw [if_pos hlt]
      have h2 := parseUnsigned_text full (w := 8) a x hx [] ws_nil _ (more_noNumber hr noNumber_bracket s)
      rw [List.nil_append] at h2
      rw [P.bind_ok h2]
      have := ih (acc ++ [a]) (by simp; omega) false r hr f (by omega)
      simp only [List.length_append, List.length_cons, List.length_nil, List.append_assoc,
        List.cons_append, List.nil_append, Nat.zero_add] at this
      rw [show acc.length + (l.length + 1) = acc.length + 1 + l.length from by omega]
      exact this
    · rw [if_neg hlt]
      exact ⟨fun h => absurd h (by omega), fun _ => ⟨_, rfl⟩⟩

/-- **C31**, the full statement, with the correction: a JSON array of numbers is decoded as a byte array if and only if it has the right number
of elements; otherwise it is an error. -/
theorem C31_corrected (full : Bool) (n : Nat) (l x ws rest : Bytes) (hx : Arr (l.map (fun b => NatText b.toNat)) x) (hw : Ws ws) :
    (∀ h : l.length = n, decArrayC full n (ws ++ (x ++ rest)) = .ok (⟨l, h⟩, rest)) ∧
    (l.length ≠ n → ∃ r, decArrayC full n (ws ++ (x ++ rest)) = .error (.length, r)) := by
  obtain ⟨e, he, h1⟩ := arr_ws hx hw (s := rest)
  have hl := separated_length he (by
    intro q hq x hx
    obtain ⟨b, -, rfl⟩ := List.mem_map.1 hq
    exact isValue_ne_nil (natText_isValue hx))
  rw [List.length_map] at hl
  have h2 := arrayLoopC_any full n rest l [] (by simp) true e he ((e ++ 0x5D#8 :: rest).length + 1) (by simp; omega)
  simp only [List.length_nil, Nat.zero_add, List.nil_append] at h2
  constructor
  · intro h
    have h3 : arrayElemsC full n (e ++ 0x5D#8 :: rest) = .ok ((l, l.length), 0x5D#8 :: rest) :=
      h2.1 (by omega)
    unfold decArrayC
    rw [P.bind_ok h1, P.bind_ok h3]
    dsimp only
    rw [if_pos h]
    have h4 : toArray n l = .ok ⟨l, h⟩ := by unfold toArray; rw [dif_pos h]
    have h5 : P.ofExcept (toArray n l) (0x5D#8 :: rest) = .ok (⟨l, h⟩, 0x5D#8 :: rest) := by rw [h4]; rfl
    rw [P.bind_ok h5, P.bind_ok (endSeq_close false rest)]
    rfl
  · intro h
    rcases Nat.lt_or_gt_of_ne h with hlt | hgt
    · have h3 : arrayElemsC full n (e ++ 0x5D#8 :: rest) = .ok ((l, l.length), 0x5D#8 :: rest) :=
        h2.1 (by omega)
      refine ⟨0x5D#8 :: rest, ?_⟩
      unfold decArrayC
      rw [P.bind_ok h1, P.bind_ok h3]
      dsimp only
      rw [if_neg h]
      rfl
    · obtain ⟨r, hr⟩ := h2.2 hgt
      have h3 : arrayElemsC full n (e ++ 0x5D#8 :: rest) = .error (.length, r) := hr
      refine ⟨r, ?_⟩
      unfold decArrayC
      rw [P.bind_ok h1]
      exact P.bind_err h3

/-! ## Examples -/

example : decArrayC true 2 (utf8% "[ 7,255 ] ") = .ok (⟨[7#8, 255#8], rfl⟩, utf8% " ") ∧
    decArrayC true 2 (utf8% "[7,255,0]") = .error (.length, utf8% "0]") ∧
    decArrayC true 2 (utf8% "[7]") = .error (.length, utf8% "]") := by
  decide +kernel

end Musli.Json
