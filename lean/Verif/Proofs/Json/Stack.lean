import Verif.Proofs.Json.Loose
import Verif.Proofs.Stack
import Verif.Proofs.Value.JsonAny
import Verif.Proofs.Value.Any
import Verif.Proofs.Calls
/-!
# The depth of calls while skipping JSON
-/
set_option linter.unusedSectionVars false
namespace Musli.Json
open Musli Spec

theorem opens_append (x y : Bytes) : opens (x ++ y) = opens x + opens y := by
  induction x with
  | nil => simp [opens]
  | cons b x ih => simp only [List.cons_append, opens, ih]; omega

theorem opens_le_length (s : Bytes) : opens s ≤ s.length := by
  induction s with
  | nil => simp [opens]
  | cons b s ih =>
    simp only [opens, List.length_cons]
    split <;> omega

theorem bind_congr {α β} {p q : P α} {f g : α → P β} {s : Bytes} (h : p s = q s)
    (h' : ∀ a s', q s = .ok (a, s') → f a s' = g a s') : (p >>= f) s = (q >>= g) s := by
  rw [P.bind_apply, P.bind_apply, h]
  cases hq : q s with
  | error e => rfl
  | ok x => exact h' x.1 x.2 hq

theorem skipS_all : ∀ (fuel : Nat),
    (∀ k s, opens s < k → skipValS fuel k s = skipVal fuel s) ∧
    (∀ k first s, opens s < k → skipElemsS fuel k first s = skipElems fuel first s) ∧
    (∀ k first s, opens s < k → skipEntriesS fuel k first s = skipEntries fuel first s) := by
  intro fuel
  induction fuel with
  | zero =>
    refine ⟨?_, ?_, ?_⟩
    · intro k s h
      obtain ⟨k, rfl⟩ : ∃ j, k = j + 1 := ⟨k - 1, by omega⟩
      rw [skipValS, skipVal]
    · intro k first s h; rw [skipElemsS, skipElems]
    · intro k first s h; rw [skipEntriesS, skipEntries]
  | succ fuel ih =>
    obtain ⟨ihV, ihE, ihM⟩ := ih
    refine ⟨?_, ?_, ?_⟩
    · intro k s h
      obtain ⟨k, rfl⟩ : ∃ j, k = j + 1 := ⟨k - 1, by omega⟩
      rw [skipValS, skipVal, lex_bind, lex_bind]
      obtain ⟨ws, hws, e⟩ := dropWs_spec s
      generalize dropWs s = d at e
      have hd : opens d < k + 1 := by
        rw [e, opens_append] at h; omega
      cases ht : tokenAt d with
      | openBrace =>
        obtain ⟨r, rfl⟩ := tokenAt_inv (t := .openBrace) rfl ht
        show (P.skip 1 >>= _) (0x7B#8 :: r) = (P.skip 1 >>= _) (0x7B#8 :: r)
        rw [skip1_bind, skip1_bind]
        exact ihM k true r (by simp [opens] at hd; omega)
      | openBracket =>
        obtain ⟨r, rfl⟩ := tokenAt_inv (t := .openBracket) rfl ht
        show (P.skip 1 >>= _) (0x5B#8 :: r) = (P.skip 1 >>= _) (0x5B#8 :: r)
        rw [skip1_bind, skip1_bind]
        exact ihE k true r (by simp [opens] at hd; omega)
      | null => rfl
      | tru => rfl
      | fals => rfl
      | number => rfl
      | string => rfl
      | comma => rfl
      | colon => rfl
      | whitespace => rfl
      | closeBrace => rfl
      | closeBracket => rfl
      | error => rfl
      | eof => rfl
    · intro k first s h
      rw [skipElemsS, skipElems]
      refine bind_congr rfl fun more s1 h1 => ?_
      obtain ⟨g, hg, rfl, hb⟩ := nextValue_inv first _ _ _ h1
      rw [opens_append] at h
      cases more with
      | false => rfl
      | true =>
        refine bind_congr (ihV k s1 (by omega)) fun _ s2 h2 => ?_
        obtain ⟨ws, x, _, _, rfl⟩ := (skip_loose fuel).1 _ _ h2
        simp only [opens_append] at h
        exact ihE k false s2 (by omega)
    · intro k first s h
      rw [skipEntriesS, skipEntries]
      refine bind_congr rfl fun more s1 h1 => ?_
      obtain ⟨g, hg, rfl, hb, hq⟩ := nextKey_inv first _ _ _ h1
      rw [opens_append] at h
      cases more with
      | false => rfl
      | true =>
        refine bind_congr (ihV k s1 (by omega)) fun _ s2 h2 => ?_
        obtain ⟨ws, x, _, _, e2⟩ := (skip_loose fuel).1 _ _ h2
        rw [e2, opens_append, opens_append] at h
        refine bind_congr rfl fun _ s3 h3 => ?_
        obtain ⟨ws', _, e3⟩ := expect_inv (t := .colon) rfl h3
        rw [e3, opens_append] at h
        simp only [opens] at h
        refine bind_congr (ihV k s3 (by omega)) fun _ s4 h4 => ?_
        obtain ⟨ws2, x2, _, _, e4⟩ := (skip_loose fuel).1 _ _ h4
        rw [e4, opens_append, opens_append] at h
        exact ihM k false s4 (by omega)

theorem skipS_eq {k : Nat} {s : Bytes} (h : opens s < k) : skipS k s = skip s :=
  (skipS_all _).1 k s h

theorem replicate_snoc (n : Nat) (b : Byte) (s : Bytes) :
    List.replicate n b ++ b :: s = List.replicate (n + 1) b ++ s := by
  induction n with
  | zero => rfl
  | succ n ih => rw [List.replicate_succ, List.cons_append, ih]; rfl

theorem nest_succ (n : Nat) (s : Bytes) :
    nest (n + 1) ++ s = 0x5B#8 :: (nest n ++ 0x5D#8 :: s) := by
  unfold nest
  rw [List.append_assoc, List.append_assoc, replicate_snoc, List.replicate_succ]; rfl

theorem skipVal_open (fuel : Nat) (s : Bytes) :
    skipVal (fuel + 1) (0x5B#8 :: s) = skipElems fuel true s := by
  rw [skipVal, lex_bind, dropWs_of_not (by decide)]
  show (P.skip 1 >>= _) (0x5B#8 :: s) = _
  rw [skip1_bind]

theorem skipValS_open (fuel k : Nat) (s : Bytes) :
    skipValS (fuel + 1) (k + 1) (0x5B#8 :: s) = skipElemsS fuel k true s := by
  rw [skipValS, lex_bind, dropWs_of_not (by decide)]
  show (P.skip 1 >>= _) (0x5B#8 :: s) = _
  rw [skip1_bind]

theorem nextValue_open (first : Bool) (s : Bytes) :
    nextValue first (0x5B#8 :: s) = .ok (true, 0x5B#8 :: s) := by
  rw [nextValue]
  rfl

/-- Nested brackets are skipped when there is room. -/
theorem skipVal_nest : ∀ (n fuel : Nat), 2 * (n + 1) ≤ fuel → ∀ s,
    skipVal fuel (nest (n + 1) ++ s) = .ok ((), s)
  | 0, fuel, h, s => by
    obtain ⟨f, rfl⟩ : ∃ f, fuel = f + 2 := ⟨fuel - 2, by omega⟩
    rw [nest_succ, skipVal_open]
    exact skipElems_close f true ws_nil s
  | n + 1, fuel, h, s => by
    obtain ⟨f, rfl⟩ : ∃ f, fuel = f + 3 := ⟨fuel - 3, by omega⟩
    rw [nest_succ, skipVal_open, skipElems]
    rw [show nest (n + 1) ++ 0x5D#8 :: s = 0x5B#8 :: (nest n ++ 0x5D#8 :: 0x5D#8 :: s) from
      nest_succ n _]
    rw [P.bind_ok (nextValue_open true _)]
    rw [← nest_succ n (0x5D#8 :: s)]
    show (skipVal (f + 1) >>= fun _ => skipElems (f + 1) false) _ = _
    rw [P.bind_ok (skipVal_nest n (f + 1) (by omega) (0x5D#8 :: s))]
    exact skipElems_close f false ws_nil s

/-- Nested brackets overflow the stack when there is not. -/
theorem skipValS_nest : ∀ (k n fuel : Nat), k ≤ n → 2 * n ≤ fuel → ∀ s,
    ∃ s', skipValS fuel k (nest (n + 1) ++ s) = .error (.panic, s')
  | 0, n, fuel, _, _, s => by
    rw [skipValS.eq_def]
    cases fuel <;> exact ⟨_, rfl⟩
  | k + 1, n, fuel, hk, hf, s => by
    obtain ⟨f, rfl⟩ : ∃ f, fuel = f + 2 := ⟨fuel - 2, by omega⟩
    obtain ⟨n, rfl⟩ : ∃ j, n = j + 1 := ⟨n - 1, by omega⟩
    rw [nest_succ, skipValS_open, skipElemsS]
    rw [show nest (n + 1) ++ 0x5D#8 :: s = 0x5B#8 :: (nest n ++ 0x5D#8 :: 0x5D#8 :: s) from
      nest_succ n _]
    rw [P.bind_ok (nextValue_open true _)]
    rw [← nest_succ n (0x5D#8 :: s)]
    obtain ⟨s', h⟩ := skipValS_nest k n f (by omega) (by omega) (0x5D#8 :: s)
    refine ⟨s', ?_⟩
    show (skipValS f k >>= fun _ => skipElemsS f k false) _ = _
    rw [P.bind_apply, h]

/-! ## Decoding a `Value` -/

/-- The document of nested arrays. -/
def docNest : Nat → Doc
  | 0 => .arr []
  | n + 1 => .arr [docNest n]

theorem docNest_small : ∀ n, (docNest n).small
  | 0 => by simp [docNest, Doc.small, smalls]
  | n + 1 => by simp [docNest, Doc.small, smalls, docNest_small n]

theorem docNest_depth : ∀ n, depth (docNest n) = n + 1
  | 0 => by simp [docNest, depth, depths]
  | n + 1 => by simp [docNest, depth, depths, docNest_depth n]

theorem nest_one (n : Nat) : nest (n + 1) = 0x5B#8 :: (nest n ++ [0x5D#8]) := by
  have := nest_succ n []
  rwa [List.append_nil] at this

theorem nest_length (n : Nat) : (nest n).length = 2 * n := by
  simp [nest]; omega

theorem docNest_text : ∀ n, (docNest n).text (nest (n + 1))
  | 0 => by
    rw [docNest, Doc.text]
    exact ⟨[], ws_nil, rfl⟩
  | n + 1 => by
    rw [docNest, Doc.text, nest_one (n + 1)]
    exact ⟨nest (n + 1), ⟨[], nest (n + 1), [], ws_nil, docNest_text n, ws_nil, by simp⟩, by simp⟩

variable (flt : Bool → Parts 128 → BitVec 64)

theorem readValue_nest (n : Nat) :
    readValue flt (nest (n + 1)) = .ok ((docNest n).toValue, []) := by
  have h := anyJ_text flt (docNest n) (docNest_small n) ((nest (n + 1)).length + 1)
    (by rw [docNest_depth, nest_length]; omega) _ (docNest_text n) [] ws_nil [] noNumber_nil
  rw [List.nil_append, List.append_nil] at h
  exact h

theorem anyJ_nest : ∀ (k n : Nat), k ≤ n → ∀ s,
    ∃ s', anyJ flt k (nest (n + 1) ++ s) = .error (.fuel, s')
  | 0, n, _, s => ⟨_, rfl⟩
  | k + 1, n, h, s => by
    obtain ⟨n, rfl⟩ : ∃ j, n = j + 1 := ⟨n - 1, by omega⟩
    obtain ⟨s', ih⟩ := anyJ_nest k n (by omega) (0x5D#8 :: s)
    refine ⟨s', ?_⟩
    rw [nest_succ, anyJ, lex_bind, dropWs_of_not (by decide)]
    show (sequence (anyJ flt k) >>= _) (0x5B#8 :: _) = _
    have hs : sequence (anyJ flt k) (0x5B#8 :: (nest (n + 1) ++ 0x5D#8 :: s)) =
        .error (.fuel, s') := by
      unfold sequence
      rw [P.bind_ok (expect_ok' (t := .openBracket) rfl _), P.bind_apply]
      have : allElems (anyJ flt k) (nest (n + 1) ++ 0x5D#8 :: s) = .error (.fuel, s') := by
        unfold allElems
        rw [elems]
        rw [nest_succ n (0x5D#8 :: s), P.bind_ok (nextValue_open true _), ← nest_succ n (0x5D#8 :: s)]
        show (anyJ flt k >>= _) _ = _
        rw [P.bind_apply, ih]
      rw [this]
    rw [P.bind_apply, hs]

end Musli.Json

namespace Musli.Desc
section
variable [Host] (o : Options)

/-- Sequences nested within each other. -/
def seqNest : Nat → Value
  | 0 => .seq []
  | n + 1 => .seq [seqNest n]

/-- Their encoding. -/
def bytesNest : Nat → Bytes
  | 0 => [tag SEQUENCE 0]
  | n + 1 => tag SEQUENCE 1 :: bytesNest n

theorem enc_seqNest : ∀ n, encValue (fmt o) (seqNest n) = .ok (bytesNest n)
  | 0 => by
    rw [seqNest, encValue]
    rfl
  | n + 1 => by
    rw [seqNest, encValue]
    simp only [encValues, enc_seqNest n]
    show (.ok [tag SEQUENCE 1] +> (.ok (bytesNest n) +> .ok [])) = _
    rw [seq_ok_nil]
    rfl

theorem readValue_seqNest (n : Nat) :
    readValue o (bytesNest n) = .ok ((seqNest n).fixedWidth, []) := by
  have h := anyV_enc o (seqNest n) ((bytesNest n).length + 1) _ [] (enc_seqNest o n) (by omega)
  rw [List.append_nil] at h
  exact h

theorem anyV_nest : ∀ (k n : Nat), k ≤ n → ∀ s, anyV o k (bytesNest n ++ s) = .error .fuel
  | 0, n, _, s => rfl
  | k + 1, n, h, s => by
    obtain ⟨n, rfl⟩ : ∃ j, n = j + 1 := ⟨n - 1, by omega⟩
    have ih := anyV_nest k n (by omega) s
    rw [bytesNest, List.cons_append, anyV_cons]
    repeat (first | rw [if_pos (by decide)] | rw [if_neg (by decide)])
    have e : decTagLen o SEQUENCE (tag SEQUENCE 1 :: (bytesNest n ++ s)) =
        .ok (1, bytesNest n ++ s) := rfl
    rw [Dec.bind_ok e]
    have e2 : decN (anyV o k) 1 (bytesNest n ++ s) = .error .fuel := by
      rw [decN, Dec.bind_error ih]
    rw [Dec.bind_error e2]

end
end Musli.Desc
