import Verif.Proofs.Json.Numbers
import Verif.Spec.Json.Text
import Verif.Model.Json.Codec
/-!
# Skipping JSON values
-/
set_option linter.unusedSectionVars false
namespace Musli.Json
open Musli Spec

/-! ## Numbers -/

theorem peek_bind {α} (f : Option Byte → P α) (s : Bytes) : (P.peek >>= f) s = f s.head? s := rfl

theorem skip1_bind {α} (f : Unit → P α) (b : Byte) (s : Bytes) :
    (P.skip 1 >>= f) (b :: s) = f () s := by
  rw [P.bind_ok (a := ()) (s' := s)]
  simp [P.skip]

theorem consumeDigits_ok {l s : Bytes} (hl : Digits l) (hs : NoDigit s) :
    consumeDigits (l ++ s) = .ok ((), s) := by
  unfold consumeDigits
  rw [dropDigits_eq hl hs]

theorem skipInt_ok {num : Bytes} (hn : Numeral num) {s : Bytes} (hs : NoDigit s) :
    skipInt (num ++ s) = .ok ((), s) := by
  unfold skipInt
  rcases hn with rfl | ⟨b, r, rfl, hb1, hb2, hr⟩
  · rfl
  · have hb0 : (b == 0x30#8) = false := by
      cases h : b == 0x30#8 with
      | false => rfl
      | true => simp at h; subst h; simp at hb1
    have hb3 := (isDigitNonzero_iff b).2 ⟨hb1, hb2⟩
    rw [List.cons_append, P.bind_ok (a := b) (s' := r ++ s) rfl]
    rw [if_neg (by simp [hb0]), if_pos hb3, consumeDigits_ok hr hs]

theorem digit_ne_sign {b : Byte} (h : Digit b) : b ≠ 0x2D#8 ∧ b ≠ 0x2B#8 := by
  unfold Digit at h
  revert h; revert b; decide

theorem skipSign_ok {sg ds s : Bytes} (h : sg = [] ∨ sg = [0x2B#8] ∨ sg = [0x2D#8])
    (hd : Digits ds) (hne : ds ≠ []) : skipSign (sg ++ (ds ++ s)) = .ok ((), ds ++ s) := by
  unfold skipSign
  rw [peek_bind]
  rcases h with rfl | rfl | rfl
  · cases ds with
    | nil => exact absurd rfl hne
    | cons d ds =>
      have hd' := digit_ne_sign (hd d (by simp))
      rw [if_neg]
      · rfl
      · simp [hd'.1, hd'.2]
  · rfl
  · rfl

theorem noNumber_head {s : Bytes} (hs : NoNumber s) :
    (s.head? == some 0x2E#8) = false ∧
    (s.head? == some 0x65#8 || s.head? == some 0x45#8) = false := by
  cases s with
  | nil => exact ⟨rfl, rfl⟩
  | cons b r => have := hs b r rfl; simpa using this.2

theorem skipExp_ok {exp s : Bytes}
    (he : exp = [] ∨ ∃ e sg ds, (e = 0x65#8 ∨ e = 0x45#8) ∧
        (sg = [] ∨ sg = [0x2B#8] ∨ sg = [0x2D#8]) ∧ Digits ds ∧ ds ≠ [] ∧ exp = e :: (sg ++ ds))
    (hs : NoNumber s) : skipExp (exp ++ s) = .ok ((), s) := by
  unfold skipExp
  rw [peek_bind]
  rcases he with rfl | ⟨e, sg, ds, he, hsg, hd, hne, rfl⟩
  · rw [List.nil_append, if_neg (by simp [(noNumber_head hs).2])]
    rfl
  · rw [if_pos (by rcases he with rfl | rfl <;> rfl), List.cons_append, skip1_bind,
      List.append_assoc, P.bind_ok (skipSign_ok hsg hd hne),
      consumeDigits_ok hd (fun b r hb => (hs b r hb).1)]

theorem skipFrac_ok {frac s : Bytes}
    (hf : frac = [] ∨ ∃ ds, Digits ds ∧ ds ≠ [] ∧ frac = 0x2E#8 :: ds)
    (hd : NoDigit s) (hdot : (s.head? == some 0x2E#8) = false) :
    skipFrac (frac ++ s) = .ok ((), s) := by
  unfold skipFrac
  rw [peek_bind]
  rcases hf with rfl | ⟨ds, hds, hne, rfl⟩
  · rw [List.nil_append, if_neg (by simp [hdot])]
    rfl
  · rw [if_pos (by rfl), List.cons_append, skip1_bind, consumeDigits_ok hds hd]

theorem skipNumber_ok {ws l s : Bytes} (hw : Ws ws) (hn : Number l)
    (hs : NoNumber s) : skipNumber (ws ++ (l ++ s)) = .ok ((), s) := by
  cases hn with
  | @mk neg int frac exp hi hf he =>
    have e1 : NoDigit (exp ++ s) ∧ ((exp ++ s).head? == some 0x2E#8) = false := by
      rcases he with rfl | ⟨e, sg, ds, he, hsg, hd, hne, rfl⟩
      · exact ⟨fun b r hb => (hs b r hb).1, (noNumber_head hs).1⟩
      · constructor
        · intro b r hb
          cases hb
          rcases he with rfl | rfl <;> unfold Digit <;> decide
        · rcases he with rfl | rfl <;> rfl
    have e2 : NoDigit (frac ++ (exp ++ s)) := by
      rcases hf with rfl | ⟨ds, hds, hne, rfl⟩
      · exact e1.1
      · intro b r hb
        cases hb
        unfold Digit; decide
    unfold skipNumber
    simp only [List.append_assoc]
    rw [skipWs_bind, dropWs_signed neg hw hi, P.bind_ok (minus_sign_numeral neg hi _),
      P.bind_ok (skipInt_ok hi e2), P.bind_ok (skipFrac_ok hf e1.1 e1.2)]
    exact skipExp_ok he hs

/-! ## Values -/

/-- What can follow a value inside of an array or an object. -/
theorem noNumber_ws_cons {ws : Bytes} (hw : Ws ws) {b : Byte} (hb : NoNumber [b]) (s : Bytes) :
    NoNumber (ws ++ b :: s) := by
  intro x r h
  cases ws with
  | nil => cases h; exact hb b [] rfl
  | cons y ws =>
    cases h
    rcases hw x (by simp) with h | h | h | h <;> subst h <;> unfold Digit <;> decide

theorem noNumber_comma : NoNumber [0x2C#8] := by
  intro b r h; cases h; unfold Digit; decide
theorem noNumber_bracket : NoNumber [0x5D#8] := by
  intro b r h; cases h; unfold Digit; decide
theorem noNumber_brace : NoNumber [0x7D#8] := by
  intro b r h; cases h; unfold Digit; decide

theorem isWs_of {ws : Bytes} (h : Ws ws) : ∀ b ∈ ws, isWs b = true := by
  intro b hb
  rcases h b hb with h | h | h | h <;> subst h <;> decide

theorem nextValue_ws {ws : Bytes} (h : Ws ws) (first : Bool) (s : Bytes) :
    nextValue first (ws ++ s) = nextValue first s := by
  induction ws with
  | nil => rfl
  | cons b ws ih =>
    rw [List.cons_append, nextValue, if_pos (isWs_of h b (by simp))]
    exact ih (fun x hx => h x (by simp [hx]))

theorem nextKey_ws {ws : Bytes} (h : Ws ws) (first : Bool) (s : Bytes) :
    nextKey first (ws ++ s) = nextKey first s := by
  induction ws with
  | nil => rfl
  | cons b ws ih =>
    rw [List.cons_append, nextKey, if_pos (isWs_of h b (by simp))]
    exact ih (fun x hx => h x (by simp [hx]))

theorem nextValue_comma (s : Bytes) : nextValue false (0x2C#8 :: s) = nextValue false s := by
  conv => lhs; unfold nextValue
  rfl

theorem nextKey_comma (s : Bytes) : nextKey false (0x2C#8 :: s) = nextKey false s := by
  conv => lhs; unfold nextKey
  rfl

theorem nextValue_close (first : Bool) (s : Bytes) :
    nextValue first (0x5D#8 :: s) = .ok (false, 0x5D#8 :: s) := by
  cases first <;> rfl

theorem nextKey_close (first : Bool) (s : Bytes) :
    nextKey first (0x7D#8 :: s) = .ok (false, 0x7D#8 :: s) := by
  cases first <;> rfl

theorem nextKey_quote (first : Bool) (s : Bytes) :
    nextKey first (0x22#8 :: s) = .ok (true, 0x22#8 :: s) := by
  cases first <;> rfl

theorem nextValue_value {b : Byte} (h : (Token.ofByte b).isValue = true) (first : Bool) (s : Bytes) :
    nextValue first (b :: s) = .ok (true, b :: s) := by
  have h1 : isWs b = false := by revert h; revert b; decide
  rw [nextValue, if_neg (by simp [h1]), if_pos h]

theorem digit_token {b : Byte} (h : Digit b) : Token.ofByte b = .number := by
  unfold Digit at h; revert h; revert b; decide

theorem number_cons {l : Bytes} (h : Number l) : ∃ b r, l = b :: r ∧ Token.ofByte b = .number := by
  cases h with
  | @mk neg int frac exp hi hf he =>
    cases neg with
    | true => exact ⟨_, _, rfl, by decide⟩
    | false =>
      obtain ⟨b, r, rfl, hb⟩ := numeral_cons hi
      exact ⟨b, _, rfl, digit_token hb⟩

/-- A value starts with a byte that starts a value. -/
theorem isValue_cons {s : Bytes} (h : IsValue s) :
    ∃ b r, s = b :: r ∧ (Token.ofByte b).isValue = true := by
  unfold IsValue at h
  cases h with
  | number hn =>
    obtain ⟨b, r, rfl, hb⟩ := number_cons hn
    exact ⟨b, r, rfl, by rw [hb]; rfl⟩
  | null => exact ⟨_, _, rfl, by decide⟩
  | tru => exact ⟨_, _, rfl, by decide⟩
  | fals => exact ⟨_, _, rfl, by decide⟩
  | string => exact ⟨_, _, rfl, by decide⟩
  | emptyArray => exact ⟨_, _, rfl, by decide⟩
  | array => exact ⟨_, _, rfl, by decide⟩
  | emptyObject => exact ⟨_, _, rfl, by decide⟩
  | object => exact ⟨_, _, rfl, by decide⟩

theorem nextValue_isValue {x : Bytes} (h : IsValue x) (first : Bool) (s : Bytes) :
    nextValue first (x ++ s) = .ok (true, x ++ s) := by
  obtain ⟨b, r, rfl, hb⟩ := isValue_cons h
  exact nextValue_value hb first _

theorem dropWs_isValue {ws x : Bytes} (hw : Ws ws) (h : IsValue x) (s : Bytes) :
    dropWs (ws ++ (x ++ s)) = x ++ s := by
  obtain ⟨b, r, rfl, hb⟩ := isValue_cons h
  rw [dropWs_ws hw]
  apply dropWs_of_not
  clear h
  revert hb; revert b; decide

theorem lex_bind {α} (f : Token → P α) (s : Bytes) :
    (lex >>= f) s = f (tokenAt (dropWs s)) (dropWs s) := rfl

theorem parseExact_ok (x s : Bytes) : parseExact x (x ++ s) = .ok ((), s) := by
  unfold parseExact
  rw [P.bind_ok (a := x) (s' := s)]
  · simp; rfl
  · simp [P.read]

/-- What skipping a part of the grammar means. -/
def Skips : Part → Bytes → Prop
  | .value, x => ∀ fuel, x.length ≤ fuel → ∀ ws, Ws ws → ∀ s, NoNumber s →
      skipVal fuel (ws ++ (x ++ s)) = .ok ((), s)
  | .elements, x => ∀ fuel, x.length + 1 ≤ fuel → ∀ (first : Bool) s,
      skipElems fuel first (x ++ 0x5D#8 :: s) = .ok ((), s)
  | .members, x => ∀ fuel, x.length + 1 ≤ fuel → ∀ (first : Bool) s,
      skipEntries fuel first (x ++ 0x7D#8 :: s) = .ok ((), s)

/-- A comma before the elements is passed over when it is not the first. -/
theorem skipElems_comma (fuel : Nat) {ws : Bytes} (hw : Ws ws) (s : Bytes) :
    skipElems (fuel + 1) false (ws ++ 0x2C#8 :: s) = skipElems (fuel + 1) false s := by
  unfold skipElems
  rw [P.bind_apply, nextValue_ws hw, nextValue_comma, P.bind_apply]

theorem skipEntries_comma (fuel : Nat) {ws : Bytes} (hw : Ws ws) (s : Bytes) :
    skipEntries (fuel + 1) false (ws ++ 0x2C#8 :: s) = skipEntries (fuel + 1) false s := by
  unfold skipEntries
  rw [P.bind_apply, nextKey_ws hw, nextKey_comma, P.bind_apply]

theorem skipElems_close (fuel : Nat) (first : Bool) {ws : Bytes} (hw : Ws ws) (s : Bytes) :
    skipElems (fuel + 1) first (ws ++ 0x5D#8 :: s) = .ok ((), s) := by
  unfold skipElems
  rw [P.bind_apply, nextValue_ws hw, nextValue_close]
  exact expect_ok' (t := .closeBracket) rfl s

theorem skipEntries_close (fuel : Nat) (first : Bool) {ws : Bytes} (hw : Ws ws) (s : Bytes) :
    skipEntries (fuel + 1) first (ws ++ 0x7D#8 :: s) = .ok ((), s) := by
  unfold skipEntries
  rw [P.bind_apply, nextKey_ws hw, nextKey_close]
  exact expect_ok' (t := .closeBrace) rfl s

theorem skipElems_value (fuel : Nat) (first : Bool) {ws x : Bytes} (hw : Ws ws) (hx : IsValue x)
    (hs : Skips .value x) (hf : x.length ≤ fuel) {s : Bytes} (hn : NoNumber s) :
    skipElems (fuel + 1) first (ws ++ (x ++ s)) = skipElems fuel false s := by
  conv => lhs; unfold skipElems
  rw [P.bind_apply, nextValue_ws hw, nextValue_isValue hx]
  exact P.bind_ok (x := skipVal fuel) (f := fun _ => skipElems fuel false)
    (hs fuel hf [] ws_nil s hn)

theorem skipVal_string (fuel : Nat) {ws l : Bytes} {cs : List Char} (hw : Ws ws) (h : Lit l cs)
    (s : Bytes) : skipVal (fuel + 1) (ws ++ ((0x22#8 :: l ++ [0x22#8]) ++ s)) = .ok ((), s) := by
  unfold skipVal
  rw [lex_bind, dropWs_isValue hw (Text.string h)]
  simp only [List.cons_append, List.append_assoc, List.nil_append]
  show (P.skip 1 >>= _) (0x22#8 :: _) = _
  rw [skip1_bind]
  exact skipString_lit h s

theorem skipEntries_member (fuel : Nat) (first : Bool) {a b c l x : Bytes} {cs : List Char}
    (ha : Ws a) (hl : Lit l cs) (hb : Ws b) (hc : Ws c)
    (hs : Skips .value x) (hf : x.length ≤ fuel + 1) {s : Bytes} (hn : NoNumber s) :
    skipEntries (fuel + 2) first
      (a ++ (0x22#8 :: l ++ [0x22#8]) ++ (b ++ 0x3A#8 :: (c ++ (x ++ s)))) =
      skipEntries (fuel + 1) false s := by
  conv => lhs; unfold skipEntries
  rw [P.bind_apply, List.append_assoc, nextKey_ws ha]
  rw [List.cons_append, List.cons_append, nextKey_quote]
  show (skipVal (fuel + 1) >>= _) _ = _
  have := skipVal_string fuel ws_nil hl (b ++ 0x3A#8 :: (c ++ (x ++ s)))
  simp only [List.nil_append, List.cons_append] at this
  rw [P.bind_ok this, P.bind_ok (expect_ok (t := .colon) rfl hb _), P.bind_ok (hs _ hf c hc s hn)]

theorem skips {p : Part} {x : Bytes} (h : Text p x) : Skips p x := by
  induction h with
  | null =>
    intro fuel hf ws hw s hn
    obtain ⟨f, rfl⟩ : ∃ f, fuel = f + 1 := ⟨fuel - 1, by simp at hf; omega⟩
    unfold skipVal
    rw [lex_bind, dropWs_isValue hw Text.null]
    exact parseExact_ok strNull s
  | tru =>
    intro fuel hf ws hw s hn
    obtain ⟨f, rfl⟩ : ∃ f, fuel = f + 1 := ⟨fuel - 1, by simp at hf; omega⟩
    unfold skipVal
    rw [lex_bind, dropWs_isValue hw Text.tru]
    exact parseExact_ok strTrue s
  | fals =>
    intro fuel hf ws hw s hn
    obtain ⟨f, rfl⟩ : ∃ f, fuel = f + 1 := ⟨fuel - 1, by simp at hf; omega⟩
    unfold skipVal
    rw [lex_bind, dropWs_isValue hw Text.fals]
    exact parseExact_ok strFalse s
  | number hl =>
    intro fuel hf ws hw s hn
    obtain ⟨b, r, rfl, hb⟩ := number_cons hl
    obtain ⟨f, rfl⟩ : ∃ f, fuel = f + 1 := ⟨fuel - 1, by simp at hf; omega⟩
    unfold skipVal
    rw [lex_bind, dropWs_isValue hw (Text.number hl)]
    simp only [List.cons_append, tokenAt, hb]
    exact skipNumber_ok ws_nil hl hn
  | string hl =>
    intro fuel hf ws hw s hn
    obtain ⟨f, rfl⟩ : ∃ f, fuel = f + 1 := ⟨fuel - 1, by simp at hf; omega⟩
    exact skipVal_string f hw hl s
  | @emptyArray e he =>
    intro fuel hf ws hw s hn
    obtain ⟨f, rfl⟩ : ∃ f, fuel = f + 2 := ⟨fuel - 2, by simp at hf; omega⟩
    unfold skipVal
    rw [lex_bind, dropWs_isValue hw (Text.emptyArray he)]
    simp only [List.cons_append, List.append_assoc, List.nil_append]
    show (P.skip 1 >>= _) (0x5B#8 :: _) = _
    rw [skip1_bind]
    exact skipElems_close f true he s
  | @array e he ih =>
    intro fuel hf ws hw s hn
    obtain ⟨f, rfl⟩ : ∃ f, fuel = f + 1 := ⟨fuel - 1, by simp at hf; omega⟩
    unfold skipVal
    rw [lex_bind, dropWs_isValue hw (Text.array he)]
    simp only [List.cons_append, List.append_assoc, List.nil_append]
    show (P.skip 1 >>= _) (0x5B#8 :: _) = _
    rw [skip1_bind]
    exact ih f (by simp at hf; omega) true s
  | @emptyObject e he =>
    intro fuel hf ws hw s hn
    obtain ⟨f, rfl⟩ : ∃ f, fuel = f + 2 := ⟨fuel - 2, by simp at hf; omega⟩
    unfold skipVal
    rw [lex_bind, dropWs_isValue hw (Text.emptyObject he)]
    simp only [List.cons_append, List.append_assoc, List.nil_append]
    show (P.skip 1 >>= _) (0x7B#8 :: _) = _
    rw [skip1_bind]
    exact skipEntries_close f true he s
  | @object e he ih =>
    intro fuel hf ws hw s hn
    obtain ⟨f, rfl⟩ : ∃ f, fuel = f + 1 := ⟨fuel - 1, by simp at hf; omega⟩
    unfold skipVal
    rw [lex_bind, dropWs_isValue hw (Text.object he)]
    simp only [List.cons_append, List.append_assoc, List.nil_append]
    show (P.skip 1 >>= _) (0x7B#8 :: _) = _
    rw [skip1_bind]
    exact ih f (by simp at hf; omega) true s
  | @element a v b ha hv hb ih =>
    intro fuel hf first s
    obtain ⟨y, r, hy, _⟩ := isValue_cons hv
    have hpos : 0 < v.length := by rw [hy]; simp
    simp only [List.length_append] at hf
    obtain ⟨f, rfl⟩ : ∃ f, fuel = f + 2 := ⟨fuel - 2, by omega⟩
    simp only [List.append_assoc]
    rw [skipElems_value (f + 1) first ha hv ih (by omega) (noNumber_ws_cons hb noNumber_bracket s)]
    exact skipElems_close f false hb s
  | @elements a v b e ha hv hb he ih ihe =>
    intro fuel hf first s
    obtain ⟨y, r, hy, _⟩ := isValue_cons hv
    have hpos : 0 < v.length := by rw [hy]; simp
    simp only [List.length_append, List.length_cons] at hf
    obtain ⟨f, rfl⟩ : ∃ f, fuel = f + 2 := ⟨fuel - 2, by omega⟩
    simp only [List.append_assoc, List.cons_append]
    rw [skipElems_value (f + 1) first ha hv ih (by omega) (noNumber_ws_cons hb noNumber_comma _),
      skipElems_comma f hb]
    exact ihe (f + 1) (by omega) false s
  | @member a b c v d l cs ha hl hb hc hv hd ih =>
    intro fuel hf first s
    simp only [List.length_append, List.length_cons, List.length_nil] at hf
    obtain ⟨f, rfl⟩ : ∃ f, fuel = f + 2 := ⟨fuel - 2, by omega⟩
    have e : a ++ (0x22#8 :: l ++ [0x22#8]) ++ (b ++ 0x3A#8 :: (c ++ (v ++ d))) ++ 0x7D#8 :: s =
      a ++ (0x22#8 :: l ++ [0x22#8]) ++ (b ++ 0x3A#8 :: (c ++ (v ++ (d ++ 0x7D#8 :: s)))) := by simp
    rw [e, skipEntries_member f first ha hl hb hc ih (by omega)
      (noNumber_ws_cons hd noNumber_brace s)]
    exact skipEntries_close f false hd s
  | @members a b c v d l e cs ha hl hb hc hv hd he ih ihe =>
    intro fuel hf first s
    simp only [List.length_append, List.length_cons, List.length_nil] at hf
    obtain ⟨f, rfl⟩ : ∃ f, fuel = f + 2 := ⟨fuel - 2, by omega⟩
    have e : a ++ (0x22#8 :: l ++ [0x22#8]) ++ (b ++ 0x3A#8 :: (c ++ (v ++ (d ++ 0x2C#8 :: e)))) ++ 0x7D#8 :: s =
      a ++ (0x22#8 :: l ++ [0x22#8]) ++ (b ++ 0x3A#8 :: (c ++ (v ++ (d ++ 0x2C#8 :: (e ++ 0x7D#8 :: s))))) := by simp
    rw [e, skipEntries_member f first ha hl hb hc ih (by omega)
      (noNumber_ws_cons hd noNumber_comma _), skipEntries_comma f hd]
    exact ihe (f + 1) (by omega) false s

/-- Skipping consumes exactly a JSON value. -/
theorem skip_isValue {ws x : Bytes} (hw : Ws ws) (h : IsValue x) {s : Bytes} (hs : NoNumber s) :
    skip (ws ++ (x ++ s)) = .ok ((), s) :=
  skips h _ (by unfold skipFuel; simp; omega) ws hw s hs

end Musli.Json
