import Verif.Model.Json.Scratch
import Verif.Proofs.Borrow
import Verif.Props.Samples
/-!
# C129: strings with a scratch buffer which may run out of memory
-/
set_option linter.unusedSectionVars false
namespace Musli.Json
open Musli Spec

variable {grant : Requests → Bool}

/-- All requests are for less than `n` bytes. -/
def Below (n : Nat) (hist : Requests) : Prop := ∀ q ∈ hist, q.1 + q.2 < n

theorem escape_shrinks {e : Bytes} {c : Char} (h : Escape e c) : (Utf8.encodeChar c).length ≤ e.length := by
  have h4 : (Utf8.encodeChar c).length ≤ 4 := by
    unfold Utf8.encodeChar
    dsimp only
    repeat' split
    all_goals simp
  have hx : ∀ {l : Bytes} {n : Nat}, Hex4 l n → l.length = 4 := by
    rintro l n ⟨a, b, c, d, -, -, -, -, rfl, -⟩
    rfl
  cases h with
  | unicode h => have := hx h; simp; omega
  | pair h1 h2 => have := hx h1; have := hx h2; simp; omega
  | _ => decide +kernel

theorem strLoopM_cases : ∀ (fuel : Nat) (hist : Requests) (sc s : Bytes),
    strLoopM grant fuel hist sc s = strLoop fuel sc s ∨ ∃ r, strLoopM grant fuel hist sc s = .error (.full, r) := by
  intro fuel
  induction fuel with
  | zero => intro hist sc s; exact .inl rfl
  | succ fuel ih =>
    intro hist sc s
    unfold strLoopM strLoop
    dsimp only
    cases (spanPlain s).2 with
    | nil => exact .inl rfl
    | cons b s' =>
      dsimp only
      by_cases hb : b == 0x22#8
      · rw [if_pos hb, if_pos hb]
        cases hs : sc.isEmpty with
        | true =>
          rw [if_pos rfl, List.isEmpty_iff.1 hs]
          cases checkUtf8 (spanPlain s).1 <;> exact .inl rfl
        | false =>
          rw [if_neg (by simp)]
          cases checkUtf8 (spanPlain s).1 with
          | error e => exact .inl rfl
          | ok u =>
            dsimp only
            split
            · exact .inl rfl
            · exact .inr ⟨_, rfl⟩
      · rw [if_neg hb, if_neg hb]
        by_cases hc : b == 0x5C#8
        · rw [if_pos hc, if_pos hc]
          cases checkUtf8 (spanPlain s).1 with
          | error e => exact .inl rfl
          | ok u =>
            dsimp only
            split
            · rw [P.bind_apply, P.bind_apply]
              cases parseEscape s' with
              | error e => exact .inl rfl
              | ok x =>
                dsimp only
                split
                · exact ih _ _ _
                · exact .inr ⟨_, rfl⟩
            · exact .inr ⟨_, rfl⟩
        · rw [if_neg hc, if_neg hc]
          exact .inl rfl

theorem strLoopM_granted {n : Nat} (hg : ∀ h, Below n h → grant h = true) :
    ∀ (fuel : Nat) (hist : Requests) (sc s : Bytes), Below n hist → sc.length + s.length < n →
      strLoopM grant fuel hist sc s = strLoop fuel sc s := by
  intro fuel
  induction fuel with
  | zero => intro hist sc s _ _; rfl
  | succ fuel ih =>
    intro hist sc s hb hn
    have hs := (spanPlain_spec s).1
    unfold strLoopM strLoop
    dsimp only
    cases hp : (spanPlain s).2 with
    | nil => rfl
    | cons b s' =>
      rw [hp] at hs
      have hl : s.length = (spanPlain s).1.length + (s'.length + 1) := by
        have := congrArg List.length hs
        simpa using this
      have hb' : Below n ((sc.length, (spanPlain s).1.length) :: hist) := by
        intro q hq
        rcases List.mem_cons.1 hq with rfl | hq
        · dsimp only; omega
        · exact hb q hq
      dsimp only
      by_cases hq : b == 0x22#8
      · rw [if_pos hq, if_pos hq]
        cases hs : sc.isEmpty with
        | true =>
          rw [if_pos rfl, List.isEmpty_iff.1 hs]
          cases checkUtf8 (spanPlain s).1 <;> rfl
        | false =>
          rw [if_neg (by simp), if_pos (hg _ hb')]
          cases checkUtf8 (spanPlain s).1 <;> rfl
      · rw [if_neg hq, if_neg hq]
        by_cases hc : b == 0x5C#8
        · rw [if_pos hc, if_pos hc]
          cases checkUtf8 (spanPlain s).1 with
          | error e => rfl
          | ok u =>
            dsimp only
            rw [if_pos (hg _ hb'), P.bind_apply, P.bind_apply]
            cases hx : parseEscape s' with
            | error e => rfl
            | ok x =>
              obtain ⟨x, s''⟩ := x
              obtain ⟨e, c, rfl, rfl, he⟩ := parseEscape_inv hx
              have h1 := escape_shrinks he
              simp only [List.length_append] at hl
              have hb'' : Below n ((sc.length + (spanPlain s).1.length, (Utf8.encodeChar c).length) ::
                  (sc.length, (spanPlain s).1.length) :: hist) := by
                intro q hq
                rcases List.mem_cons.1 hq with rfl | hq
                · dsimp only; omega
                · exact hb' q hq
              dsimp only
              rw [if_pos (hg _ hb'')]
              refine ih _ _ _ hb'' ?_
              simp only [List.length_append]
              omega
        · rw [if_neg hc, if_neg hc]

/-- **C129**: whatever memory there is, a string is decoded to what it is with unlimited memory, or it is refused for want of
memory. It is never decoded to another string. -/
theorem C129_same (s : Bytes) :
    parseStringM grant s = parseString s ∨ ∃ r, parseStringM grant s = .error (.full, r) := by
  unfold parseStringM parseString
  rw [P.bind_apply, P.bind_apply]
  cases expect .string s with
  | error e => exact .inl rfl
  | ok x => exact strLoopM_cases _ _ _ _

/-- **C129**: as many bytes of memory as there is input suffice: if requests for less are granted, strings are decoded as with
unlimited memory. -/
theorem C129_enough {s : Bytes} (hg : ∀ hist : Requests, (∀ q ∈ hist, q.1 + q.2 < s.length) → grant hist = true) :
    parseStringM grant s = parseString s := by
  unfold parseStringM parseString
  rw [P.bind_apply, P.bind_apply]
  cases he : expect .string s with
  | error e => rfl
  | ok x =>
    obtain ⟨u, s'⟩ := x
    obtain ⟨ws, hw, e⟩ := expect_inv (t := .string) rfl he
    refine strLoopM_granted (n := s.length) hg _ _ _ _ (fun _ h => nomatch h) ?_
    rw [e]
    simp
    omega

theorem strLoopM_plain {s out r : Bytes} (hp : AllPlain out) (hv : Utf8.valid out = true) (hs : s = out ++ 0x22#8 :: r) :
    parseStringInnerM grant s = .ok (out, r) := by
  subst hs
  unfold parseStringInnerM strLoopM
  dsimp only
  rw [spanPlain_append hp, spanPlain_stop (by decide)]
  simp [checkUtf8, hv]

/-- **C129**: a string without escapes is decoded without any memory, and with any. -/
theorem C129_plain {ws out r : Bytes} (hw : Ws ws) (hp : AllPlain out) (hv : Utf8.valid out = true) :
    parseStringM grant (ws ++ 0x22#8 :: (out ++ 0x22#8 :: r)) = .ok (out, r) := by
  unfold parseStringM
  rw [P.bind_ok (expect_ok (t := .string) (b := 0x22#8) rfl hw _)]
  exact strLoopM_plain hp hv rfl

/-- **C129**: without memory strings are decoded if and only if they have no escapes. -/
theorem C129_no_memory (s out r : Bytes) : parseStringM noMemory s = .ok (out, r) ↔
    ∃ ws, Ws ws ∧ AllPlain out ∧ Utf8.valid out = true ∧ s = ws ++ 0x22#8 :: (out ++ 0x22#8 :: r) := by
  constructor
  · intro h
    unfold parseStringM at h
    obtain ⟨_, s1, h1, h2⟩ := P.bind_eq_ok.1 h
    obtain ⟨ws, hw, rfl⟩ := expect_inv (t := .string) rfl h1
    refine ⟨ws, hw, ?_⟩
    unfold parseStringInnerM strLoopM at h2
    dsimp only at h2
    obtain ⟨e, hp, -⟩ := spanPlain_spec s1
    cases hs : (spanPlain s1).2 with
    | nil => rw [hs] at h2; cases h2
    | cons c s' =>
      rw [hs] at h2 e
      dsimp only at h2
      by_cases hc : c == 0x22#8
      · rw [if_pos hc] at h2
        simp only [List.isEmpty_nil, if_true] at h2
        cases hu : checkUtf8 (spanPlain s1).1 with
        | error e => rw [hu] at h2; cases h2
        | ok u =>
          rw [hu] at h2
          cases h2
          simp only [beq_iff_eq] at hc
          rw [hc] at e
          refine ⟨hp, ?_, congrArg _ (congrArg _ e)⟩
          unfold checkUtf8 at hu
          split at hu
          · assumption
          · cases hu
      · rw [if_neg hc] at h2
        by_cases hc : c == 0x5C#8
        · rw [if_pos hc] at h2
          cases hu : checkUtf8 (spanPlain s1).1 with
          | error e => rw [hu] at h2; cases h2
          | ok u => rw [hu] at h2; cases h2
        · rw [if_neg hc] at h2; cases h2
  · rintro ⟨ws, hw, hp, hv, rfl⟩
    exact C129_plain hw hp hv

/-! ### The hypotheses are met -/

/-- `"a\nb"` is refused without memory, and decoded with 7 bytes. -/
example : parseStringM noMemory (utf8% "\"a\\nb\" ") = .error (.full, utf8% "\\nb\" ") ∧
    parseStringM (fun h => h.all fun q => q.1 + q.2 < 7) (utf8% "\"a\\nb\" ") = .ok (utf8% "a\nb", [0x20#8]) := by
  refine ⟨rfl, ?_⟩
  rw [C129_enough]
  · rfl
  · intro h hh
    simpa using hh

/-- If there is memory only for the escape, what follows is refused, and what is left starts from the closing quote. -/
example : parseStringM (fun h => h.length ≤ 2) (utf8% "\"a\\nb\" ") = .error (.full, utf8% "\" ") := rfl

end Musli.Json
