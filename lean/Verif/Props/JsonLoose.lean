import Verif.Proofs.Json.Loose
import Verif.Props.Json
/-!
# C42: the JSON decoder accepts nothing but (nearly) JSON

`Spec/Json/Denotes.lean` says which JSON texts denote a value; `Spec/Json/Loose.lean` is the same
with the liberties which the decoder takes, one by one.
-/
namespace Musli.Json
open Musli Spec

/-- **C42**: the full statement. What is accepted is a JSON text which denotes the result. -/
def C42Full : Prop := ∀ (full : Bool) (env : Env) (t : Ty) (s : Bytes) (v : t.Val) (rest : Bytes),
  decode full env t s = .ok (v, rest) → ∃ ws x, Ws ws ∧ Denotes env t v x ∧ s = ws ++ (x ++ rest)

/-- `[1 2]` is not JSON for two numbers. -/
theorem not_json : ∀ x, x ++ [] = utf8% "[1 2]" → ¬ Arr [NatText 1, NatText 2] x := by
  intro x hx ⟨e, he, h⟩
  rw [List.append_nil] at hx
  rw [hx] at h
  have h1 : e = utf8% "1 2" := by
    have h2 : (0x5B#8 :: utf8% "1 2") ++ [0x5D#8] = 0x5B#8 :: e ++ [0x5D#8] := h
    have := List.append_cancel_right h2
    injection this with _ h3
    exact h3.symm
  have hc : 0x2C#8 ∈ e := by
    obtain ⟨a, x, r, _, _, ⟨b, c, y, r', _, _, _, _, e2⟩, e1⟩ := he
    rw [e1, e2]
    simp
  rw [h1] at hc
  revert hc
  decide

/-- **C42** is false: `[1 2]` decodes to a vector of two numbers. -/
theorem C42_full_statement_false : ¬ C42Full := by
  intro h
  obtain ⟨ws, x, hw, hx, e⟩ := h true Sample.env (.vec (.prim (.uint .w8))) (utf8% "[1 2]")
    ([1#8, 2#8] : List (BitVec 8)) [] (by rfl)
  have hnil : ws = [] := by
    cases ws with
    | nil => rfl
    | cons b l =>
      exfalso
      have h1 : b = 0x5B#8 := by
        have : (utf8% "[1 2]") = 0x5B#8 :: utf8% "1 2]" := rfl
        rw [this] at e
        injection e with h2 _
        exact h2.symm
      have h2 := hw b (by simp)
      rw [h1] at h2
      revert h2
      decide
  subst hnil
  refine not_json x e.symm ?_
  simp only [Denotes] at hx
  exact hx

/-- More ways in which **C42** is false: commas without elements between them or after the last
element, and a key which is not just the integer. -/
theorem C42_more_counterexamples :
    decode true Sample.env (.vec (.prim (.uint .w8))) (utf8% "[1,,2,]") = .ok (([1#8, 2#8] : List (BitVec 8)), []) ∧
    decode true Sample.env (.map (.prim (.uint .w8)) (.prim .bool)) (utf8% "{\"1x\":true,}") =
      .ok (([(1#8, true)] : List (BitVec 8 × Bool)), []) := ⟨rfl, rfl⟩

/-- **C42**, what holds: what is accepted is, after whitespace, a text of the loose grammar for the
result, for every type, input and remainder. -/
theorem C42_accepts_only_partial (full : Bool) (env : Env) (t : Ty) (s : Bytes) (v : t.Val) (rest : Bytes)
    (h : decode full env t s = .ok (v, rest)) :
    ∃ ws x, Ws ws ∧ LDenotes full env t v x ∧ s = ws ++ (x ++ rest) :=
  sound_decJ full env t s v rest h

/-- **C42** for booleans, without liberties. -/
theorem C42_bool (full : Bool) (env : Env) (s : Bytes) (v : Bool) (rest : Bytes) :
    decode full env (.prim .bool) s = .ok (v, rest) ↔
      ∃ ws, Ws ws ∧ s = ws ++ ((if v then utf8% "true" else utf8% "false") ++ rest) := by
  constructor
  · intro h
    obtain ⟨ws, x, hw, hx, e⟩ := sound_decJ full env (.prim .bool) s v rest h
    simp only [LDenotes, LPrim] at hx
    exact ⟨ws, hw, by rw [e, hx]⟩
  · rintro ⟨ws, hw, rfl⟩
    show decBool _ = _
    unfold decBool
    rw [lex_bind, dropWs_ws hw]
    cases v with
    | true =>
      show (parseExact strTrue >>= fun _ => (pure true : P Bool)) (strTrue ++ rest) = _
      rw [P.bind_ok (parseExact_ok strTrue rest)]
      rfl
    | false =>
      show (parseExact strFalse >>= fun _ => (pure false : P Bool)) (strFalse ++ rest) = _
      rw [P.bind_ok (parseExact_ok strFalse rest)]
      rfl

/-- **C42** for characters, without liberties: a string literal with this character and no other. -/
theorem C42_char (full : Bool) (env : Env) (s : Bytes) (v : Char) (rest : Bytes) :
    decode full env (.prim .char) s = .ok (v, rest) ↔
      ∃ ws x, Ws ws ∧ StrText [v] x ∧ s = ws ++ (x ++ rest) := by
  constructor
  · intro h
    obtain ⟨ws, x, hw, hx, e⟩ := sound_decJ full env (.prim .char) s v rest h
    simp only [LDenotes, LPrim] at hx
    exact ⟨ws, x, hw, hx, e⟩
  · rintro ⟨ws, x, hw, ⟨l, hl, rfl⟩, rfl⟩
    show decChar _ = _
    unfold decChar
    rw [P.bind_ok ((parseString_iff _ (Utf8.encode [v]) rest).2 ⟨ws, l, [v], hw, hl, by simp, rfl⟩), singleChar_encode]
    rfl

/-- The premise of `C42_accepts_only_partial` holds of this text, which has an unknown member and a
repeated member. -/
example : decode true Sample.env
    (.strct .str (.cons (Sample.str (utf8% "a")) none none (.prim (.uint .w8)) .nil))
    (utf8% " { \"x\" : [null, {}] , \"a\":7,\"a\":1.5e1} tail") =
    .ok ((15#8, ()), utf8% " tail") := by rfl

/-- The premise of `C42_char` holds of this text. -/
example : decode true Sample.env (.prim .char) (utf8% "\"\\u0041\"!") = .ok ('A', utf8% "!") := by rfl

/-- Two characters are not a character. -/
example : ∃ e, decode true Sample.env (.prim .char) (utf8% "\"ab\"") = .error e := ⟨_, rfl⟩

end Musli.Json
